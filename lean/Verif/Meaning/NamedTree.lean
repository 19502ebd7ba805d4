import Verif.Meaning.NamedSim
/-!
# … for every tree
-/
namespace Verif.Meaning.Named
open Verif.Lexer (Chars BinOp)
open Verif.Parser (Node)
open Verif.Pipeline (Names lower lowerAll lowerVars lowerVar lowerLit lowerLits bin un both three massign both_some three_some
  map_some Has)
open Verif.Codegen (Id Ctx Nodes World St Res Eff eval evalSeq evalAll evalFirst evalMassign evalBin evalUn onVal ofEff ofEffB
  getVar setVar setVars loopN truthy Legal LegalAll Var)
open Verif.Value (Val)

variable {W X : Type} {O : Objects W X} {K : World W X} {x : Ctx} {id : Names} {vars : List Chars} {u : Bool} {self : Val} {n : Nat}

/-- Whatever the specification says of a tree, the evaluator does on the tree of the compiler. -/
def Does (O : Objects W X) (K : World W X) (x : Ctx) (id : Names) (vars : List Chars) (self : Val) (n : Nat) (e : Node) : Prop :=
  ∀ (u : Bool) (c : Codegen.Node), lower id e = some c → Legal (Has vars id) True true c → ∀ s σ, Match x id vars s σ →
    Sim x id vars u (run O self n e u s) (eval K self true x n c u σ)

/-- … of a list of trees. -/
structure DoesAll (O : Objects W X) (K : World W X) (x : Ctx) (id : Names) (vars : List Chars) (me : Val) (n : Nat)
    (l : List Node) : Prop where
  one : ∀ e, l = [e] → Does O K x id vars me n e
  seq : ∀ (u : Bool) (c : Nodes), lowerAll id l = some c → LegalAll (Has vars id) True true c → ∀ s σ, Match x id vars s σ →
    Sim x id vars u (runSeq O me n l u s) (evalSeq K me true x n c u σ)
  all : ∀ (c : Nodes), lowerAll id l = some c → LegalAll (Has vars id) True true c → ∀ s σ, Match x id vars s σ →
    SimAll x id vars none (runAll O me n l s) (evalAll K me true x n c σ)
  first : ∀ (c : Nodes), lowerAll id l = some c → LegalAll (Has vars id) True true c → ∀ k s σ, Match x id vars s σ →
    SimAll x id vars (some k) (runFirst O me n k l s) (evalFirst K me true x n c k σ)

local notation "D" => Does O K x id vars self n
local notation "DA" => DoesAll O K x id vars self n

theorem lowerAll_cons {e : Node} {l : List Node} {c : Nodes} (h : lowerAll id (e :: l) = some c) :
    ∃ a s, lower id e = some a ∧ lowerAll id l = some s ∧ c = .cons a s := by
  rw [lowerAll] at h
  split at h
  · rename_i a s h1 h2; cases h; exact ⟨a, s, h1, h2, rfl⟩
  · cases h

theorem DoesAll.nil : DA [] where
  one e h := by cases h
  seq u c h hl s σ hm := by cases h; rw [runSeq, evalSeq]; exact .val hm
  all c h hl s σ hm := by
    cases h; rw [runAll, evalAll]
    intro o s' he; cases he; exact ⟨_, _, rfl, hm, rfl⟩
  first c h hl k s σ hm := by
    cases h; rw [runFirst, evalFirst]
    intro o s' he; cases he; exact ⟨_, _, rfl, hm, rfl⟩

theorem DoesAll.cons {e : Node} {l : List Node} (h1 : D e) (h2 : DA l) : DA (e :: l) where
  one _ h := by cases h; exact h1
  seq u c h hl s σ hm := by
    obtain ⟨a, t, q1, q2, rfl⟩ := lowerAll_cons h
    rw [LegalAll] at hl
    cases l with
    | nil => cases q2; rw [runSeq, evalSeq]; exact h1 u _ q1 hl.1 s σ hm
    | cons e' l =>
      have q2' := q2
      obtain ⟨b, t', q3, q4, rfl⟩ := lowerAll_cons q2
      rw [runSeq, evalSeq]
      exact (h1 false _ q1 hl.1 s σ hm).bind fun _ _ s σ _ hm => h2.seq u _ q2' hl.2 s σ hm
  all c h hl s σ hm := by
    obtain ⟨a, t, q1, q2, rfl⟩ := lowerAll_cons h
    rw [LegalAll] at hl
    rw [runAll, evalAll]
    intro o s' he
    have S := h1 true _ q1 hl.1 s σ hm
    split at he
    · rename_i v s1 hv
      obtain ⟨r, σ1, e1, k2, k3⟩ := S _ _ hv
      cases r <;> try exact k2.elim
      obtain rfl := k2 rfl
      rw [e1]
      dsimp only
      have T := h2.all _ q2 hl.2 s1 σ1 k3
      split at he
      · rename_i vs s2 hvs
        obtain ⟨r, σ2, e2, k4, k5⟩ := T _ _ hvs
        cases he
        cases r <;> try exact k5.elim
        rw [e2]
        exact ⟨_, _, rfl, k4, by dsimp only at k5 ⊢; rw [k5]⟩
      · rename_i hne
        obtain ⟨r, σ2, e2, k4, k5⟩ := T _ _ he
        rw [e2]
        cases o with
        | ok vs => exact (hne _ _ he).elim
        | error o => cases r <;> first | exact k5.elim | exact ⟨_, _, rfl, k4, k5⟩
    · rename_i o1 s1 hne hv
      cases he
      obtain ⟨r, σ1, e1, k2, k3⟩ := S _ _ hv
      rw [e1]
      cases o1 with
      | value v => exact (hne v rfl).elim
      | _ => cases r <;> first | exact k2.elim | exact ⟨_, _, rfl, k3, k2, by simp⟩
    · cases he
  first c h hl k s σ hm := by
    obtain ⟨a, t, q1, q2, rfl⟩ := lowerAll_cons h
    rw [LegalAll] at hl
    rw [runFirst, evalFirst]
    intro o s' he
    have S := h1 (decide (0 < k)) _ q1 hl.1 s σ hm
    split at he
    · rename_i v s1 hv
      obtain ⟨r, σ1, e1, k2, k3⟩ := S _ _ hv
      cases r <;> try exact k2.elim
      rw [e1]
      dsimp only
      have T := h2.first _ q2 hl.2 (k - 1) s1 σ1 k3
      split at he
      · rename_i vs s2 hvs
        obtain ⟨r, σ2, e2, k4, k5⟩ := T _ _ hvs
        cases he
        cases r <;> try exact k5.elim
        rw [e2]
        refine ⟨_, _, rfl, k4, ?_⟩
        dsimp only at k5 ⊢
        cases k with
        | zero => rfl
        | succ k =>
          simp only [Nat.add_sub_cancel] at k5
          rw [List.take_succ_cons, List.take_succ_cons, k5, k2 (by simp)]
      · rename_i hne
        obtain ⟨r, σ2, e2, k4, k5⟩ := T _ _ he
        rw [e2]
        cases o with
        | ok vs => exact (hne _ _ he).elim
        | error o => cases r <;> first | exact k5.elim | exact ⟨_, _, rfl, k4, k5⟩
    · rename_i o1 s1 hne hv
      cases he
      obtain ⟨r, σ1, e1, k2, k3⟩ := S _ _ hv
      rw [e1]
      cases o1 with
      | value v => exact (hne v rfl).elim
      | _ =>
        cases r <;> first
          | exact k2.elim
          | exact ⟨_, _, rfl, k3, k2, by simp⟩
    · cases he

/-- Not described. -/
theorem Does.undescribed {e : Node} (h : ∀ u s, run O self n e u s = none) : D e := by
  intro u c _ _ s σ _
  rw [h]; exact .none

theorem Does.bin_logic_and {a b : Node} (ha : D a) (hb : D b) : D (.BinOp .LAnd a b) := by
  intro u c h hl s σ hm
  rw [lower] at h
  obtain ⟨a', b', h1, h2, rfl⟩ := both_some h
  rw [bin, Legal] at hl
  rw [bin, eval, run]
  refine (ha true _ h1 hl.1 s σ hm).bindV fun v s σ hm => ?_
  rw [truthy_eq]
  cases truth v
  · exact .val hm
  · exact hb u _ h2 hl.2 s σ hm

theorem Does.bin_logic_or {a b : Node} (ha : D a) (hb : D b) : D (.BinOp .LOr a b) := by
  intro u c h hl s σ hm
  rw [lower] at h
  obtain ⟨a', b', h1, h2, rfl⟩ := both_some h
  rw [bin, Legal] at hl
  rw [bin, eval, run]
  refine (ha true _ h1 hl.1 s σ hm).bindV fun v s σ hm => ?_
  rw [truthy_eq]
  cases truth v
  · exact hb u _ h2 hl.2 s σ hm
  · exact .val hm

theorem legal_bin_parts {op : BinOp} {a b : Codegen.Node} {P : Id → Prop} {B : Prop} {lp : Bool}
    (h : Legal P B lp (bin id op a b)) : Legal P B lp a ∧ Legal P B lp b := by
  cases op <;> simp only [bin, Legal, LegalAll, and_true] at h <;> exact h

variable {setter : Id → Id}

theorem Does.bin (hA : Acts O K id setter) {op : BinOp} (h1 : op ≠ .LAnd) (h2 : op ≠ .LOr) {a b : Node} (ha : D a) (hb : D b) :
    D (.BinOp op a b) := by
  intro u c h hl s σ hm
  rw [lower] at h
  obtain ⟨a', b', h3, h4, rfl⟩ := both_some h
  obtain ⟨l1, l2⟩ := legal_bin_parts hl
  have : run O self n (.BinOp op a b) u s =
      onValue (run O self n a true s) fun v s => onValue (run O self n b true s) fun w s => apply O op v w s := by
    rw [run] <;> assumption
  rw [this]
  exact bin_sim hA op h1 h2 (ha true _ h3 l1 s σ hm) fun _ s σ hm => hb true _ h4 l2 s σ hm

theorem Does.not {a : Node} (ha : D a) : D (.UnOp .Not a) := by
  intro u c h hl s σ hm
  rw [lower] at h
  obtain ⟨a', h1, rfl⟩ := map_some h
  rw [Legal] at hl
  rw [un, eval, run]
  refine (ha true _ h1 hl s σ hm).bindV fun v s σ hm => ?_
  rw [evalUn, truthy_eq]
  exact .val hm

theorem Does.un (hA : Acts O K id setter) {op : Parser.UnOp} (h : op ≠ .Not) {a : Node} (ha : D a) : D (.UnOp op a) := by
  intro u c hc hl s σ hm
  rw [lower] at hc
  obtain ⟨a', h1, rfl⟩ := map_some hc
  rw [Legal] at hl
  have : run O self n (.UnOp op a) u s = onValue (run O self n a true s) fun v s => Named.answer s (O.unary op v s.w) := by
    rw [run]; exact h
  rw [this, eval]
  refine (ha true _ h1 hl s σ hm).bindV fun v s σ hm => ?_
  cases op with
  | Not => exact absurd rfl h
  | BitNot => exact .answer hm (by rw [← hm.world]; exact hA.bitnot ..)
  | Pos => exact .answer hm (by rw [← hm.world]; exact hA.pos ..)
  | Neg => exact .answer hm (by rw [← hm.world]; exact hA.neg ..)

theorem Does.range (hA : Acts O K id setter) {a b : Node} {ex : Bool} (ha : D a) (hb : D b) : D (.Range a b ex false) := by
  intro u c h hl s σ hm
  rw [lower] at h
  obtain ⟨a', b', h1, h2, rfl⟩ := both_some h
  rw [Legal] at hl
  rw [eval, run, if_pos rfl]
  exact (ha true _ h1 hl.1 s σ hm).bindV fun v s σ hm => (hb true _ h2 hl.2 s σ hm).bindV fun w s σ hm =>
    .answer hm (by rw [← hm.world]; exact hA.range ..)

theorem Does.index (hA : Acts O K id setter) {a b : Node} (ha : D a) (hb : D b) : D (.Index a [b]) := by
  intro u c h hl s σ hm
  rw [lower] at h
  obtain ⟨a', b', h1, h2, rfl⟩ := both_some h
  rw [Legal] at hl
  rw [eval, run]
  exact (ha true _ h1 hl.1 s σ hm).bindV fun v s σ hm => (hb true _ h2 hl.2 s σ hm).bindV fun w s σ hm =>
    .answer hm (by rw [← hm.world]; exact hA.index ..)

theorem Sim.array (hA : Acts O K id setter) {vs : List Val} {s : State W} {σ : St W} (hm : Match x id vars s σ) :
    Sim (X := X) x id vars u (some (.value (O.array vs s.w).1, { s with w := (O.array vs s.w).2 }))
      (let (v, σ) := K.mkArray vs σ; some (.val v, σ)) := by
  rw [hA.array, hm.world]
  exact .val (hm.set_w _)

theorem Does.carray (hA : Acts O K id setter) {l : List Node} : D (.Array l true) := by
  intro u c h hl s σ hm
  rw [lower] at h
  cases hls : lowerLits l with
  | none => rw [hls] at h; cases h
  | some ls =>
    rw [hls] at h; cases h
    rw [eval, run, literals_sim hls]
    cases u
    · exact .drop hm
    · exact Sim.array hA hm

theorem Does.array (hA : Acts O K id setter) {l : List Node} (h : DA l) : D (.Array l false) := by
  intro u c hc hl s σ hm
  rw [lower] at hc
  obtain ⟨c', h1, rfl⟩ : ∃ c', lowerAll id l = some c' ∧ c = .array c' := by
    cases h1 : lowerAll id l with
    | none => rw [h1] at hc; cases hc
    | some c' => rw [h1] at hc; cases hc; exact ⟨_, rfl, rfl⟩
  rw [Legal] at hl
  rw [eval, run]
  have S := h.all _ h1 hl s σ hm
  intro o s' he
  split at he
  · rename_i vs s1 hv
    obtain ⟨r, σ1, e1, k4, k5⟩ := S _ _ hv
    cases r <;> try exact k5.elim
    dsimp only at k5
    subst k5
    rw [e1]
    exact Sim.array (u := u) hA k4 o s' he
  · rename_i o1 s1 hv
    cases he
    obtain ⟨r, σ1, e1, k4, k5⟩ := S _ _ hv
    rw [e1]
    cases r with
    | ok _ => exact k5.elim
    | error r =>
      refine ⟨_, _, rfl, ?_, k4⟩
      obtain ⟨k5, k6⟩ := k5
      cases o <;> cases r <;> first | exact k5 | exact k5.elim | exact (k6 _ rfl).elim
  · cases he

theorem Does.send (hA : Acts O K id setter) {q : Node} {m : Chars} {args : List Node} (hq : D q) (h : DA args) :
    D (.Send q m args false) := by
  intro u c hc hl s σ hm
  rw [lower] at hc
  obtain ⟨q', c', h0, h1, rfl⟩ : ∃ q' c', lower id q = some q' ∧ lowerAll id args = some c' ∧ c = .send q' (id m) c' := by
    split at hc
    · cases hc; exact ⟨_, _, ‹_›, ‹_›, rfl⟩
    · cases hc
  rw [Legal] at hl
  rw [eval, run]
  refine (hq true _ h0 hl.1 s σ hm).bindV fun v s σ hm => ?_
  have S := h.all _ h1 hl.2 s σ hm
  intro o s' he
  split at he
  · rename_i vs s1 hv
    obtain ⟨r, σ1, e1, k4, k5⟩ := S _ _ hv
    cases r <;> try exact k5.elim
    dsimp only at k5
    subst k5
    rw [e1]
    exact Sim.answer (u := u) k4 (by rw [hA.send, k4.world]) o s' he
  · rename_i o1 s1 hv
    cases he
    obtain ⟨r, σ1, e1, k4, k5⟩ := S _ _ hv
    rw [e1]
    cases r with
    | ok _ => exact k5.elim
    | error r =>
      refine ⟨_, _, rfl, ?_, k4⟩
      obtain ⟨k5, k6⟩ := k5
      cases o <;> cases r <;> first | exact k5 | exact k5.elim | exact (k6 _ rfl).elim
  · cases he

theorem Does.ite {a b d : Node} (ha : D a) (hb : D b) (hd : D d) : D (.If a b d) := by
  intro u c h hl s σ hm
  rw [lower] at h
  obtain ⟨a', b', d', h1, h2, h3, rfl⟩ := three_some h
  rw [Legal] at hl
  rw [eval, run]
  refine (ha true _ h1 hl.1 s σ hm).bindV fun v s σ hm => ?_
  rw [truthy_eq]
  cases truth v
  · exact hd u _ h3 hl.2.2 s σ hm
  · exact hb u _ h2 hl.2.1 s σ hm

theorem Does.while_ {a b : Node} {p : Bool} (ha : D a) (hb : D b) : D (.While a b p) := by
  intro u c h hl s σ hm
  rw [lower] at h
  obtain ⟨a', b', h1, h2, rfl⟩ := both_some h
  rw [Legal] at hl
  rw [eval, run]
  exact loop_sim (fun s σ hm => ha true _ h1 hl.1 s σ hm) (fun s σ hm => hb false _ h2 hl.2 s σ hm) p n s σ hm

theorem Does.seq {l : List Node} (h : DA l) : D (.CompStmt l) := by
  intro u c hc hl s σ hm
  rw [lower] at hc
  obtain ⟨c', h1, rfl⟩ : ∃ c', lowerAll id l = some c' ∧ c = .seq c' := by
    cases h1 : lowerAll id l with
    | none => rw [h1] at hc; cases hc
    | some c' => rw [h1] at hc; cases hc; exact ⟨_, rfl, rfl⟩
  rw [Legal] at hl
  rw [eval, run]
  exact h.seq u _ h1 hl s σ hm

theorem Does.break_ {a : Node} (ha : D a) : D (.Break a) := by
  intro u c h hl s σ hm
  rw [lower] at h
  obtain ⟨a', h1, rfl⟩ := map_some h
  rw [Legal] at hl
  rw [eval, run]
  refine (ha true _ h1 hl.2 s σ hm).bindV fun v s σ hm => ?_
  intro o s' he; cases he; exact ⟨_, _, rfl, rfl, hm⟩

theorem Does.next {a : Node} (ha : D a) : D (.Next a) := by
  intro u c h hl s σ hm
  rw [lower] at h
  obtain ⟨a', h1, rfl⟩ := map_some h
  rw [Legal] at hl
  rw [eval, run]
  refine (ha true _ h1 hl.2 s σ hm).bindV fun v s σ hm => ?_
  intro o s' he; cases he; exact ⟨_, _, rfl, rfl, hm⟩

theorem Does.return_ {a : Node} (ha : D a) : D (.Return a) := by
  intro u c h hl s σ hm
  rw [lower] at h
  obtain ⟨a', h1, rfl⟩ := map_some h
  rw [Legal] at hl
  rw [eval, run]
  refine (ha true _ h1 hl s σ hm).bindV fun v s σ hm => ?_
  intro o s' he; cases he; exact ⟨_, _, rfl, rfl, hm⟩

/-! ## Assignments -/

theorem Does.assignVar (hA : Acts O K id setter) (hv : Vars id vars x) {t r : Node} (hr : D r) (ht : (lowerVar id t).isSome) :
    D (.MulAssign [t] [r]) := by
  intro u c h hl s σ hm
  rw [lower] at h
  cases t <;> cases ht <;> (
    rw [Pipeline.assign] at h
    obtain ⟨r', h1, rfl⟩ := map_some h
    rw [Legal] at hl
    rw [eval, run]
    refine (hr true _ h1 hl.2 s σ hm).bindV fun v s σ hm => .val ?_)
  all_goals first
    | exact hm.set hv (hv.mem hl.1) v
    | (rw [setVar, hA.setI, hm.world]; exact hm.set_w _)
    | (rw [setVar, hA.setG, hm.world]; exact hm.set_w _)

theorem Does.assignIndex (hA : Acts O K id setter) {b i r : Node} (hb : D b) (hi : D i) (hr : D r) :
    D (.MulAssign [.Index b [i]] [r]) := by
  intro u c h hl s σ hm
  rw [lower, Pipeline.assign] at h
  obtain ⟨b', i', r', h1, h2, h3, rfl⟩ := three_some h
  rw [Legal] at hl
  rw [eval, run]
  refine (hb true _ h1 hl.1 s σ hm).bindV fun b s σ hm => (hi true _ h2 hl.2.1 s σ hm).bindV fun i s σ hm =>
    (hr true _ h3 hl.2.2 s σ hm).bindV fun v s σ hm => ?_
  rw [hA.setIndex, hm.world]
  rcases O.setIndex b i v s.w with ⟨_ | _, w⟩
  · intro o s' he; cases he; exact ⟨_, _, rfl, rfl, hm.set_w w⟩
  · exact .val (hm.set_w w)

theorem Does.assignAttr (hA : Acts O K id x.setter) {q r : Node} {m : Chars} (hq : D q) (hr : D r) :
    D (.MulAssign [.Send q m [] false] [r]) := by
  intro u c h hl s σ hm
  rw [lower, Pipeline.assign] at h
  obtain ⟨q', r', h1, h2, rfl⟩ := both_some h
  rw [Legal] at hl
  rw [eval, run]
  refine (hq true _ h1 hl.1 s σ hm).bindV fun q s σ hm => (hr true _ h2 hl.2 s σ hm).bindV fun v s σ hm => ?_
  refine (Sim.answer (u := true) hm (by rw [hA.setter, hA.send, hm.world])).bindV fun _ s σ hm => ?_
  rw [Bool.true_or, if_pos rfl]
  exact .val hm

theorem Does.multi (hA : Acts O K id setter) (hv : Vars id vars x) {t t' : Node} {ts rs : List Node} (hr : DA rs) :
    D (.MulAssign (t :: t' :: ts) rs) := by
  intro u c h hl s σ hm
  rw [lower] at h
  swap
  · intro _ _ q; simp at q
  obtain ⟨ts', rs', ht, h2, rfl⟩ : ∃ ts' rs', lowerVars id (t :: t' :: ts) = some ts' ∧ lowerAll id rs = some rs' ∧
      c = .massign ts' rs' := by
    unfold massign at h
    split at h
    · cases h; exact ⟨_, _, ‹_›, ‹_›, rfl⟩
    · cases h
  rw [Legal] at hl
  have hlen : ts'.length = ts.length + 2 := by
    have : ∀ {ts : List Node} {ts' : List Var}, lowerVars id ts = some ts' → ts'.length = ts.length := by
      intro ts
      induction ts with
      | nil => intro ts' h; cases h; rfl
      | cons t ts ih =>
        intro ts' h
        rw [lowerVars] at h
        split at h
        · cases h; rename_i h; simp [ih h]
        · cases h
    simpa using this ht
  rw [eval]
  match rs, hr, h2 with
  | [], _, h2 => cases h2; rw [run]; exact .none; all_goals simp
  | [r], hr, h2 =>
    obtain ⟨r', _, q1, q2, rfl⟩ := lowerAll_cons h2
    cases q2
    rw [LegalAll] at hl
    rw [run, evalMassign]
    refine (hr.one r rfl true _ q1 hl.2.1 s σ hm).bindV fun v s σ hm => ?_
    split
    · simp at hlen
    · intro o s' he
      rw [Option.map_eq_some_iff] at he
      obtain ⟨s1, e1, e2⟩ := he
      cases e2
      refine ⟨_, _, rfl, fun _ => rfl, ?_⟩
      rw [Codegen.assignAll, if_pos rfl, hA.elements, hm.world]
      exact assignAll_sim hA hv ht hl.1 rfl hm e1
  | r :: r2 :: rs, hr, h2 =>
    have h2' := h2
    obtain ⟨r', _, q1, q2, rfl⟩ := lowerAll_cons h2
    obtain ⟨r2', _, q3, q4, rfl⟩ := lowerAll_cons q2
    cases u with
    | true =>
      rw [run, evalMassign]
      swap
      · intro _ q; cases q
      have S := hr.all _ h2' hl.2 s σ hm
      intro o s' he
      split at he
      · rename_i vs s1 hvs
        obtain ⟨q, σ1, e1, k4, k5⟩ := S _ _ hvs
        cases q <;> try exact k5.elim
        dsimp only at k5
        subst k5
        rw [e1]
        rw [Option.map_eq_some_iff] at he
        obtain ⟨s2, e2, e3⟩ := he
        have M := assignAll_sim (K := K) hA hv ht hl.1 rfl k4 e2
        dsimp only
        rw [if_pos rfl, Codegen.assignAll, if_pos rfl]
        exact Sim.array (u := true) hA M o s' (by rw [← e3])
      · rename_i o1 s1 hvs
        cases he
        obtain ⟨r, σ1, e1, k4, k5⟩ := S _ _ hvs
        rw [e1]
        cases r with
        | ok _ => exact k5.elim
        | error r =>
          refine ⟨_, _, rfl, ?_, k4⟩
          obtain ⟨k5, k6⟩ := k5
          cases o <;> cases r <;> first | exact k5 | exact k5.elim | exact (k6 _ rfl).elim
      · cases he
    | false =>
      rw [run, evalMassign, hlen]
      swap
      · intro _ q; cases q
      have S := hr.first _ h2' hl.2 (ts.length + 2) s σ hm
      intro o s' he
      split at he
      · rename_i vs s1 hvs
        obtain ⟨q, σ1, e1, k4, k5⟩ := S _ _ hvs
        cases q <;> try exact k5.elim
        dsimp only at k5
        rw [e1]
        rw [Option.map_eq_some_iff] at he
        obtain ⟨s2, e2, e3⟩ := he
        have M := assignAll_sim (K := K) hA hv ht hl.1 (by simpa using k5) k4 e2
        cases e3
        dsimp only
        rw [Codegen.assignAll, if_pos rfl]
        exact ⟨_, _, rfl, fun h => absurd h (by simp), M⟩
      · rename_i o1 s1 hvs
        cases he
        obtain ⟨r, σ1, e1, k4, k5⟩ := S _ _ hvs
        rw [e1]
        cases r with
        | ok _ => exact k5.elim
        | error r =>
          refine ⟨_, _, rfl, ?_, k4⟩
          exact k5.1
      · cases he

/-- Read a variable. -/
def asNode : Var → Codegen.Node
  | .lvar i => .lvar i
  | .ivar i => .ivar i
  | .gvar i => .gvar i

/-- `x op= r` for a variable `x`. -/
theorem Does.opAssign (hA : Acts O K id setter) (hv : Vars id vars x) {op : BinOp} {t r : Node} (hr : D r) :
    D (.AssignOp op t r) := by
  intro u c h hl s σ hm
  rw [lower] at h
  by_cases hlog : op = .LAnd ∨ op = .LOr
  · cases t
    case LocalVar y =>
      rw [Pipeline.assign] at h
      obtain ⟨q, h1, rfl⟩ := map_some h
      obtain ⟨t', r', h2, h3, rfl⟩ := both_some h1
      cases h2
      rw [Legal] at hl
      obtain ⟨l1, l2⟩ := legal_bin_parts hl.2
      have hy := hv.mem hl.1
      rcases hlog with rfl | rfl
      · rw [run, eval, Pipeline.bin, eval, eval]
        simp only [onVal]
        rw [getVar, hm.locals y hy, truthy_eq]
        cases ht : truth (s.vars y)
        · exact .val (hm.self_set hv hy)
        · exact (hr true _ h3 l2 s σ hm).bindV fun v s σ hm => .val (hm.set hv hy v)
      · rw [run, eval, Pipeline.bin, eval, eval]
        simp only [onVal]
        rw [getVar, hm.locals y hy, truthy_eq]
        cases ht : truth (s.vars y)
        · exact (hr true _ h3 l2 s σ hm).bindV fun v s σ hm => .val (hm.set hv hy v)
        · exact .val (hm.self_set hv hy)
    case InstanceVar y => rw [run, if_pos hlog]; exact .none
    case GlobalVar y => rw [run, if_pos hlog]; exact .none
    all_goals (rcases hlog with rfl | rfl <;> (rw [run]; exact .none; all_goals simp))
  · have h1 : op ≠ .LAnd := fun h => hlog (.inl h)
    have h2 : op ≠ .LOr := fun h => hlog (.inr h)
    have main : ∀ (t' : Var) (v : Val) (c r' : Codegen.Node) (S : Val → State W → State W), c = .assign t' (Pipeline.bin id op (asNode t') r') → lower id r = some r' →
        Legal (Has vars id) True true c → getVar K x σ t' = v →
        (∀ v s σ, Match x id vars s σ → Match x id vars (S v s) (setVar K x v σ t')) →
        Sim x id vars u (onValue (run O self n r true s) fun b s' => onValue (apply O op v b s') fun v s =>
          some (.value v, S v s)) (eval K self true x n c u σ) := by
      intro t' v c r' S hc hr' hl hg hS
      subst hc
      rw [Legal] at hl
      obtain ⟨l1, l2⟩ := legal_bin_parts hl.2
      rw [eval]
      have := bin_sim (u := true) hA (self := self) (n := n) op h1 h2 (R := some (.value v, s)) (σ := σ)
        (a' := asNode t') (b' := r')
        (kb := fun _ s => run O self n r true s) (by
          cases t' <;> (rw [asNode, eval, hg]; exact .val hm)) (fun _ s σ hm => hr true _ hr' l2 s σ hm)
      have := Sim.bindV (u := u) this (k := fun v s => some (.value v, S v s)) (k' := fun v σ => some (.val v, setVar K x v σ t'))
        fun v s σ hm => .val (hS v s σ hm)
      intro o s' he
      refine this o s' ?_
      rw [← he]
      simp only [onValue]
      rcases run O self n r true s with _ | ⟨o, s1⟩
      · rfl
      · cases o <;> rfl
    cases t
    case LocalVar y =>
      rw [Pipeline.assign] at h
      obtain ⟨q, h3, rfl⟩ := map_some h
      obtain ⟨t', r', h4, h5, rfl⟩ := both_some h3
      cases h4
      have hy := hv.mem (by rw [Legal] at hl; exact hl.1)
      rw [run]
      · exact main (.lvar (id y)) (s.vars y) _ r' (fun v s => s.set y v) rfl h5 hl (hm.locals y hy) fun v s σ hm => hm.set hv hy v
      · exact h1
      · exact h2
    case InstanceVar y =>
      rw [Pipeline.assign] at h
      obtain ⟨q, h3, rfl⟩ := map_some h
      obtain ⟨t', r', h4, h5, rfl⟩ := both_some h3
      cases h4
      rw [run, if_neg hlog]
      exact main (.ivar (id y)) (O.ivar y s.w) _ r' (fun v s => { s with w := O.setIvar y v s.w }) rfl h5 hl
        (by rw [getVar, hA.getI, hm.world]) fun v s σ hm => by rw [setVar, hA.setI, hm.world]; exact hm.set_w _
    case GlobalVar y =>
      rw [Pipeline.assign] at h
      obtain ⟨q, h3, rfl⟩ := map_some h
      obtain ⟨t', r', h4, h5, rfl⟩ := both_some h3
      cases h4
      rw [run, if_neg hlog]
      exact main (.gvar (id y)) (O.gvar y s.w) _ r' (fun v s => { s with w := O.setGvar y v s.w }) rfl h5 hl
        (by rw [getVar, hA.getG, hm.world]) fun v s σ hm => by rw [setVar, hA.setG, hm.world]; exact hm.set_w _
    all_goals (rw [run]; exact .none; all_goals simp)

/-! ## All trees -/

mutual
theorem does (hA : Acts O K id x.setter) (hv : Vars id vars x) : ∀ e : Node, D e
  | .SelfValue => by intro u c h hl s σ hm; cases h; rw [run, eval]; exact .val hm
  | .Nil => by intro u c h hl s σ hm; cases h; rw [run, eval]; cases u; exact .drop hm; exact .val hm
  | .Bool b => by intro u c h hl s σ hm; cases h; rw [run, eval]; cases u; exact .drop hm; exact .val hm
  | .Integer i => by intro u c h hl s σ hm; cases h; rw [run, eval]; cases u; exact .drop hm; exact .val hm
  | .Bignum i => by intro u c h hl s σ hm; cases h; rw [run, eval]; cases u; exact .drop hm; exact .val hm
  | .String t => by
    intro u c h hl s σ hm
    cases h
    rw [run, eval]
    cases u
    · exact .drop hm
    · rw [if_pos rfl, if_pos rfl, Codegen.evalLit, hA.string, hm.world]
      exact .val (hm.set_w _)
  | .LocalVar y => by
    intro u c h hl s σ hm
    cases h
    rw [Legal] at hl
    rw [run, eval, getVar, hm.locals y (hv.mem hl)]
    exact .val hm
  | .Ident m => by
    intro u c h hl s σ hm
    cases h
    rw [run, eval]
    exact .answer hm (by rw [hA.send, hm.world])
  | .InstanceVar y => by
    intro u c h hl s σ hm
    cases h
    rw [run, eval, getVar, hA.getI, hm.world]
    exact .val hm
  | .GlobalVar y => by
    intro u c h hl s σ hm
    cases h
    rw [run, eval, getVar, hA.getG, hm.world]
    exact .val hm
  | .Range a b ex false => .range hA (does hA hv a) (does hA hv b)
  | .Range a b ex true => .undescribed fun u s => by rw [run] <;> simp
  | .Array l true => .carray hA
  | .Array l false => .array hA (doesAll hA hv l)
  | .BinOp op a b => by
    have ha := does hA hv a
    have hb := does hA hv b
    by_cases h1 : op = .LAnd
    · subst h1; exact .bin_logic_and ha hb
    by_cases h2 : op = .LOr
    · subst h2; exact .bin_logic_or ha hb
    exact .bin hA h1 h2 ha hb
  | .UnOp op a => by
    have ha := does hA hv a
    by_cases h1 : op = .Not
    · subst h1; exact .not ha
    exact .un hA h1 ha
  | .Index b [i] => .index hA (does hA hv b) (does hA hv i)
  | .Index b [] => .undescribed fun u s => by rw [run] <;> simp
  | .Index b (_ :: _ :: _) => .undescribed fun u s => by rw [run] <;> simp
  | .AssignOp op l r => .opAssign hA hv (does hA hv r)
  | .MulAssign [.Index b [i]] [r] => .assignIndex hA (does hA hv b) (does hA hv i) (does hA hv r)
  | .MulAssign [.Send q m [] false] [r] => .assignAttr hA (does hA hv q) (does hA hv r)
  | .MulAssign [.Ident y] [r] => .assignVar hA hv (does hA hv r) rfl
  | .MulAssign [.LocalVar y] [r] => .assignVar hA hv (does hA hv r) rfl
  | .MulAssign [.InstanceVar y] [r] => .assignVar hA hv (does hA hv r) rfl
  | .MulAssign [.GlobalVar y] [r] => .assignVar hA hv (does hA hv r) rfl
  | .MulAssign (t :: t' :: ts) rs => .multi hA hv (doesAll hA hv rs)
  | .CompStmt l => .seq (doesAll hA hv l)
  | .If a b d => .ite (does hA hv a) (does hA hv b) (does hA hv d)
  | .While a b p => .while_ (does hA hv a) (does hA hv b)
  | .Break a => .break_ (does hA hv a)
  | .Next a => .next (does hA hv a)
  | .Return a => .return_ (does hA hv a)
  | .Send q m args false => .send hA (does hA hv q) (doesAll hA hv args)
  | .Send q m args true => .undescribed fun u s => by rw [run] <;> simp
  | .Float _ _ => .undescribed fun u s => by rw [run] <;> simp
  | .Imaginary _ => .undescribed fun u s => by rw [run] <;> simp
  | .SpecialVar _ => .undescribed fun u s => by rw [run] <;> simp
  | .ClassVar _ => .undescribed fun u s => by rw [run] <;> simp
  | .Const _ _ => .undescribed fun u s => by rw [run] <;> simp
  | .Scope _ _ => .undescribed fun u s => by rw [run] <;> simp
  | .Splat _ => .undescribed fun u s => by rw [run] <;> simp
  | .Rescue _ _ => .undescribed fun u s => by rw [run] <;> simp
  | .Def _ _ _ _ => .undescribed fun u s => by rw [run] <;> simp
  | .Defined _ => .undescribed fun u s => by rw [run] <;> simp
  | .MulAssign [.SelfValue] [_] => .undescribed fun u s => by rw [run] <;> simp
  | .MulAssign [.Nil] [_] => .undescribed fun u s => by rw [run] <;> simp
  | .MulAssign [.Integer _] [_] => .undescribed fun u s => by rw [run] <;> simp
  | .MulAssign [.Bignum _] [_] => .undescribed fun u s => by rw [run] <;> simp
  | .MulAssign [.Bool _] [_] => .undescribed fun u s => by rw [run] <;> simp
  | .MulAssign [.String _] [_] => .undescribed fun u s => by rw [run] <;> simp
  | .MulAssign [.Range _ _ _ _] [_] => .undescribed fun u s => by rw [run] <;> simp
  | .MulAssign [.Array _ _] [_] => .undescribed fun u s => by rw [run] <;> simp
  | .MulAssign [.BinOp _ _ _] [_] => .undescribed fun u s => by rw [run] <;> simp
  | .MulAssign [.UnOp _ _] [_] => .undescribed fun u s => by rw [run] <;> simp
  | .MulAssign [.Index _ []] [_] => .undescribed fun u s => by rw [run] <;> simp
  | .MulAssign [.Index _ (_ :: _ :: _)] [_] => .undescribed fun u s => by rw [run] <;> simp
  | .MulAssign [.AssignOp _ _ _] [_] => .undescribed fun u s => by rw [run] <;> simp
  | .MulAssign [.MulAssign _ _] [_] => .undescribed fun u s => by rw [run] <;> simp
  | .MulAssign [.CompStmt _] [_] => .undescribed fun u s => by rw [run] <;> simp
  | .MulAssign [.If _ _ _] [_] => .undescribed fun u s => by rw [run] <;> simp
  | .MulAssign [.While _ _ _] [_] => .undescribed fun u s => by rw [run] <;> simp
  | .MulAssign [.Break _] [_] => .undescribed fun u s => by rw [run] <;> simp
  | .MulAssign [.Next _] [_] => .undescribed fun u s => by rw [run] <;> simp
  | .MulAssign [.Return _] [_] => .undescribed fun u s => by rw [run] <;> simp
  | .MulAssign [.Send _ _ [] true] [_] => .undescribed fun u s => by rw [run] <;> simp
  | .MulAssign [.Send _ _ (_ :: _) _] [_] => .undescribed fun u s => by rw [run] <;> simp
  | .MulAssign [.Float _ _] [_] => .undescribed fun u s => by rw [run] <;> simp
  | .MulAssign [.Imaginary _] [_] => .undescribed fun u s => by rw [run] <;> simp
  | .MulAssign [.SpecialVar _] [_] => .undescribed fun u s => by rw [run] <;> simp
  | .MulAssign [.ClassVar _] [_] => .undescribed fun u s => by rw [run] <;> simp
  | .MulAssign [.Const _ _] [_] => .undescribed fun u s => by rw [run] <;> simp
  | .MulAssign [.Scope _ _] [_] => .undescribed fun u s => by rw [run] <;> simp
  | .MulAssign [.Splat _] [_] => .undescribed fun u s => by rw [run] <;> simp
  | .MulAssign [.Rescue _ _] [_] => .undescribed fun u s => by rw [run] <;> simp
  | .MulAssign [.Def _ _ _ _] [_] => .undescribed fun u s => by rw [run] <;> simp
  | .MulAssign [.Defined _] [_] => .undescribed fun u s => by rw [run] <;> simp
  | .MulAssign [] _ => .undescribed fun u s => by rw [run] <;> simp
  | .MulAssign [_] [] => .undescribed fun u s => by rw [run] <;> simp
  | .MulAssign [_] (_ :: _ :: _) => .undescribed fun u s => by rw [run] <;> simp

theorem doesAll (hA : Acts O K id x.setter) (hv : Vars id vars x) : ∀ l : List Node, DA l
  | [] => .nil
  | e :: l => .cons (does hA hv e) (doesAll hA hv l)
end

end Verif.Meaning.Named
