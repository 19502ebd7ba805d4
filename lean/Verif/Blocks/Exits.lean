import Verif.Blocks.Props
import Verif.Codegen.Toy
/-!
# `break` and `return` in blocks (C83, where the interpreter does something else than Ruby)

In Ruby, `break v` in a block ends the call to which the block was given, with the value `v`; `return v` ends the method in which
the block was written.  Here both go on in the method that has called the block, after its `yield`.
-/
namespace Verif.Blocks
open Verif.Codegen (Id Env World St R S Entry Eff Steps Ctx G Node Nodes Const CaseMap CaseMap2 gen_iseq Supported Plain Tame eval
  Bounded CtxOK outcome LegalBody Res Toy)
open Verif.ISeq (optimize)
open Verif.Methods (Code Tables slots)
open Verif.Unwind (env tag untag through Compiles tagC after)
open Verif.Value (Val)

variable {W X : Type}

section
variable {base : Val → World W X} {P : Program} {M : Image} {err : Errors X} {rb : Bool} {n : Nat} {T : Tables}

/-- The frame `y` is about to execute `yield` with the values `vs`; its block is `bl`, whose code is in `M`.  If the evaluation
of the block ends with `r`, the interpreter gets to where the frame of the block is left with `r`. -/
theorem yielded (hM : Built rb T P M) {d : Nat} {y : Frame} {fs : List Frame} {s : Cells} {w : W} {vs st : List Val} {b : BitVec 32}
    {me : Val} {sees : List Nat} {up : Given} {bl : Block} (hy : yielding y.code y.pc y.stack = some (vs, st))
    (hg : y.given = .block b me sees up) (hb : P.block b = some bl)
    (hok : y.given.Ok fs.length) {r : Res X} {σ' : St (Full W)}
    (he : eval (world base P err rb n d (fs.length + 1) me ((fs.length + 1) :: sees) up) me rb bl.ctx n bl.body true
      (enter y.sees ((fs.length + 1) :: sees) (blockArgs (base y.self) bl.params vs ⟨look y.sees s, w⟩) ⟨look y.sees s, (w, (s, true))⟩) =
        some (r, σ')) (hf : σ'.w.2.2 = true) :
    Runs base T M err (.run y fs s w)
      (leave base true (outcome bl.ctx r (untag σ')) ({ y with pc := y.pc + 5, stack := st } :: fs)
        (store ((fs.length + 1) :: sees) σ'.locals σ'.w.2.1)) := by
  obtain ⟨c, g2, gb, hB⟩ : ∃ c, M.blocks.find? (·.id = b) = some c ∧ CompilesB rb T bl c := by
    rcases find_block hM b with ⟨g1, -⟩ | ⟨f, c, h1, h2, h3⟩
    · rw [g1] at hb; cases hb
    · rw [h1] at hb
      cases hb
      exact ⟨c, h2, h3⟩
  have hc : calling y.code y.pc y.stack = none := by
    unfold yielding at hy
    unfold calling
    split at hy
    · rename_i op hop
      split at hy
      · rename_i ho
        rw [if_neg]
        rw [ho.1]
        rintro ⟨h | h, -⟩ <;> exact absurd h (by decide)
      · cases hy
    · cases hy
  have hstep : ∀ gv, y.given = gv → ∀ k', (match (generalizing := false) gv with
      | .none => some (unwind base err.noBlock (look y.sees s) ({ y with pc := y.pc + 5 } :: fs) s w)
      | .block b me sees up =>
        match M.blocks.find? (·.id = b) with
        | none => some (.done .stuck)
        | some c =>
          some (.run ⟨c.code, c.ex, me, 0, [], true, (fs.length + 1) :: sees, up, false⟩
            ({ y with pc := y.pc + 5, stack := st } :: fs)
            (push (fs.length + 1) c.lvars (prepare (base y.self) c.req vs ⟨look y.sees s, w⟩) s) w))
        = some k' → step base T M err (.run y fs s w) = some k' := by
    intro gv hgv k' h
    subst hgv
    rw [step]
    dsimp only
    rw [hc]
    dsimp only
    rw [hy]
    exact h
  have hstep := hstep _ hg
  dsimp only at hstep
  rw [g2] at hstep
  refine .step (hstep _ rfl) ?_
  rw [hg] at hok
  obtain ⟨hg1, hg2, hg3⟩ := hok
  have hdc : Desc ((fs.length + 1) :: sees) :=
    ⟨by simp, List.pairwise_cons.2 ⟨fun i hi => by have := hg2 i hi; omega, hg1.2⟩⟩
  have hltc : ∀ i ∈ (fs.length + 1) :: sees, i < fs.length + 2 := by
    intro i hi
    rcases List.mem_cons.1 hi with rfl | hi
    · omega
    · have := hg2 i hi; omega
  have hrun := frames (base := base) (err := err) (n := n) hM d ⟨c.code, c.ex, me, 0, [], true, (fs.length + 1) :: sees, up, false⟩
    ({ y with pc := y.pc + 5, stack := st } :: fs) _ _ (hB.steps hM.room _ me he) (by rw [(outcome_aux _ _ _).1]; exact hf) hdc
    hltc (hg3.mono (by simp))
  rw [at_at] at hrun
  dsimp only [enter] at hrun
  rw [store_look, store_look] at hrun
  rw [push_fresh, prepare_args, hB.params]
  refine hrun.trans (.of_eq ?_)
  cases r <;> first | rfl | (rw [outcome, outcome]; split <;> rfl)

/-- **C83** (`return`).  Whenever a block that a method has called with `yield` ends with `return v`, the interpreter goes on in
this method, with `v` as the value of the `yield`. -/
theorem C83_return_in_block_is_value_of_yield (hM : Built rb T P M) {d : Nat} {y : Frame} {fs : List Frame} {s : Cells} {w : W}
    {vs st : List Val} {b : BitVec 32}
    {me : Val} {sees : List Nat} {up : Given} {bl : Block} (hy : yielding y.code y.pc y.stack = some (vs, st))
    (hg : y.given = .block b me sees up) (hb : P.block b = some bl) (hm : y.isMethod = true)
    (hok : y.given.Ok fs.length) {v : Val} {cr : Bool} {σ' : St (Full W)}
    (he : eval (world base P err rb n d (fs.length + 1) me ((fs.length + 1) :: sees) up) me rb bl.ctx n bl.body true
      (enter y.sees ((fs.length + 1) :: sees) (blockArgs (base y.self) bl.params vs ⟨look y.sees s, w⟩) ⟨look y.sees s, (w, (s, true))⟩) =
        some (.ret v cr, σ')) (hf : σ'.w.2.2 = true) :
    Runs base T M err (.run y fs s w)
      (.run { y with pc := y.pc + 5, stack := v :: st } fs (store ((fs.length + 1) :: sees) σ'.locals σ'.w.2.1) σ'.w.1) := by
  have h := yielded hM hy hg hb hok he hf
  obtain ⟨f, c, h1, -, gb, hB⟩ : ∃ f c, P.block b = some f ∧ M.blocks.find? (·.id = b) = some c ∧ CompilesB rb T f c := by
    rcases find_block hM b with ⟨g1, -⟩ | h
    · rw [g1] at hb; cases hb
    · exact h
  rw [h1] at hb
  cases hb
  rw [outcome, if_pos hB.block, leave, methodReturn, if_pos hm] at h
  exact h

theorem methodReturn_through {v : Val} {σ : St W} {m : Frame} {rest : List Frame} {s : Cells} (hm : m.isMethod = true) :
    ∀ {pre : List Frame}, (∀ f ∈ pre, f.isMethod = false) →
      methodReturn (X := X) v σ (pre ++ m :: rest) s = .run { m with stack := v :: m.stack } rest s σ.w
  | [], _ => by rw [List.nil_append, methodReturn, if_pos hm]
  | f :: pre, h => by
    rw [List.cons_append, methodReturn, if_neg (by rw [h f (by simp)]; decide)]
    exact methodReturn_through hm fun g hg => h g (by simp [hg])

/-- **C83** (`return`, when the block was called by a block).  The frames of blocks are removed as well: the interpreter goes on
in the nearest method below, with `v` as the value of the call or `yield` it was executing. -/
theorem C83_return_through_blocks (hM : Built rb T P M) {d : Nat} {y : Frame} {fs : List Frame} {s : Cells} {w : W}
    {vs st : List Val} {b : BitVec 32}
    {me : Val} {sees : List Nat} {up : Given} {bl : Block} (hy : yielding y.code y.pc y.stack = some (vs, st))
    (hg : y.given = .block b me sees up) (hb : P.block b = some bl) (hm : y.isMethod = false)
    {pre rest : List Frame} {m : Frame} (hfs : fs = pre ++ m :: rest) (hpre : ∀ f ∈ pre, f.isMethod = false) (hmm : m.isMethod = true)
    (hok : y.given.Ok fs.length) {v : Val} {cr : Bool} {σ' : St (Full W)}
    (he : eval (world base P err rb n d (fs.length + 1) me ((fs.length + 1) :: sees) up) me rb bl.ctx n bl.body true
      (enter y.sees ((fs.length + 1) :: sees) (blockArgs (base y.self) bl.params vs ⟨look y.sees s, w⟩) ⟨look y.sees s, (w, (s, true))⟩) =
        some (.ret v cr, σ')) (hf : σ'.w.2.2 = true) :
    Runs base T M err (.run y fs s w)
      (.run { m with stack := v :: m.stack } rest (store ((fs.length + 1) :: sees) σ'.locals σ'.w.2.1) σ'.w.1) := by
  have h := yielded hM hy hg hb hok he hf
  obtain ⟨f, c, h1, -, gb, hB⟩ : ∃ f c, P.block b = some f ∧ M.blocks.find? (·.id = b) = some c ∧ CompilesB rb T f c := by
    rcases find_block hM b with ⟨g1, -⟩ | h
    · rw [g1] at hb; cases hb
    · exact h
  rw [h1] at hb
  cases hb
  rw [outcome, if_pos hB.block, leave] at h
  have hgo := methodReturn_through (X := X) (v := v) (σ := untag σ') (s := store ((fs.length + 1) :: sees) σ'.locals σ'.w.2.1) (rest := rest) hmm
    (pre := { y with pc := y.pc + 5, stack := st } :: pre) (by
      intro g hg
      rcases List.mem_cons.1 hg with rfl | hg
      · exact hm
      · exact hpre g hg)
  rw [List.cons_append, ← hfs] at hgo
  rw [hgo] at h
  exact h

/-- **C83** (`break`).  Whenever a block that a method has called with `yield` ends with `break v`, the interpreter goes on in
this method, and the value of the `yield` is missing on the operand stack. -/
theorem C83_break_in_block_resumes_yield (hM : Built rb T P M) {d : Nat} {y : Frame} {fs : List Frame} {s : Cells} {w : W}
    {vs st : List Val} {b : BitVec 32}
    {me : Val} {sees : List Nat} {up : Given} {bl : Block} (hy : yielding y.code y.pc y.stack = some (vs, st))
    (hg : y.given = .block b me sees up) (hb : P.block b = some bl)
    (hok : y.given.Ok fs.length) {v : Val} {σ' : St (Full W)}
    (he : eval (world base P err rb n d (fs.length + 1) me ((fs.length + 1) :: sees) up) me rb bl.ctx n bl.body true
      (enter y.sees ((fs.length + 1) :: sees) (blockArgs (base y.self) bl.params vs ⟨look y.sees s, w⟩) ⟨look y.sees s, (w, (s, true))⟩) =
        some (.brk v, σ')) (hf : σ'.w.2.2 = true) :
    Runs base T M err (.run y fs s w)
      (.run { y with pc := y.pc + 5, stack := st } fs (store ((fs.length + 1) :: sees) σ'.locals σ'.w.2.1) σ'.w.1) :=
  yielded hM hy hg hb hok he hf
end

/-! ## Two programs -/

/-- At most `n` instructions. -/
def exec (base : Val → World W X) (T : Tables) (M : Image) (err : Errors X) : Nat → Conf W X → Conf W X
  | 0, k => k
  | n + 1, k =>
    match step base T M err k with
    | some k' => exec base T M err n k'
    | none => k

theorem exec_runs (base : Val → World W X) (T : Tables) (M : Image) (err : Errors X) : ∀ n k, Runs base T M err k (exec base T M err n k)
  | 0, k => .refl _
  | n + 1, k => by
    unfold exec
    split
    · rename_i h
      exact .step h (exec_runs base T M err n _)
    · exact .refl _

namespace Exits

/-- Compile and optimize, with empty tables. -/
def compile (x : Ctx) (e : Node) : Option (ISeq.Code × List Entry) :=
  match gen_iseq x e (.start [] [] [] 0) with
  | .ok (_, g) => (optimize 100 g.code).map (·, g.ex)
  | .error _ => none

/-- The variables are called 10 and 11; there are none in the block. -/
def ctx : Ctx := ⟨[⟨[10, 11], .method⟩], [], fun m => m + 1000, 99⟩
def ctxB : Ctx := ⟨[⟨[], .block⟩, ⟨[10, 11], .method⟩], [], fun m => m + 1000, 99⟩

def fId : Id := 21
def gId : Id := 22

/-- `yield; 7` -/
def f : Node := .seq (.of [.yield_ .nil, .lit (.int 7)])
/-- `f { return 5 }; 8` -/
def g : Node := .seq (.of [.sendB .self fId .nil 1, .lit (.int 8)])
def returning : Node := .ret (.lit (.int 5))

/-- `1 + (yield; p 6; return 7)` -/
def f' : Node := .binop .add (.lit (.int 1)) (.seq (.of [.yield_ .nil, .send .self Toy.pId (.of [.lit (.int 6)]), .ret (.lit (.int 7))]))
/-- `f { break 5 }` -/
def g' : Node := .sendB .self fId .nil 1
def breaking : Node := .brk (.lit (.int 5))

/-- The code of the two methods and the block. -/
def image (f g b : ISeq.Code) : Image := ⟨[⟨fId, 0, 2, f, []⟩, ⟨gId, 0, 2, g, []⟩], [⟨1, 0, 0, b, []⟩]⟩

/-- Value and what has been printed. -/
def ended : Conf Toy Val → Option (Val × List Val)
  | .done (.ret v σ) => some (v, σ.w.out)
  | _ => none

def test (f g b main : Node) : Option (Option (Val × List Val)) := do
  let f ← compile ctx f
  let g ← compile ctx g
  let b ← compile ctxB b
  let m ← compile ctx main
  if f.2 = [] ∧ g.2 = [] ∧ b.2 = [] ∧ m.2 = [] then
    some (ended (exec (fun _ => Toy.world) ⟨[], [], []⟩ (image f.1 g.1 b.1) ⟨Value.nil, Value.nil⟩ 40
      (.run (mainFrame ⟨0, 0, 2, m.1, []⟩ Value.nil) [] (fun _ _ _ => Value.nil) ⟨[], []⟩)))
  else none

/-- The methods `f` (first body) and `g`, the block number 1 and the program compile, and the interpreter ends the program with
the value `v`, having printed `out`. -/
def Ends (f g b main : Node) (v : Val) (out : List Val) : Prop :=
  ∃ fc gc bc mc : ISeq.Code, compile ctx f = some (fc, []) ∧ compile ctx g = some (gc, []) ∧ compile ctxB b = some (bc, []) ∧
    compile ctx main = some (mc, []) ∧ ∃ σ, σ.w.out = out ∧
    Runs (fun _ => Toy.world) ⟨[], [], []⟩ (image fc gc bc) ⟨Value.nil, Value.nil⟩
      (.run (mainFrame ⟨0, 0, 2, mc, []⟩ Value.nil) [] (fun _ _ _ => Value.nil) ⟨[], []⟩) (.done (.ret v σ))

theorem ends {f g b main : Node} {v : Val} {out : List Val} (h : test f g b main = some (some (v, out))) :
    Ends f g b main v out := by
  unfold test at h
  simp only [Option.bind_eq_bind, Option.bind_eq_some_iff] at h
  obtain ⟨⟨f1, f2⟩, hf, ⟨g1, g2⟩, hg, ⟨b1, b2⟩, hb, ⟨m1, m2⟩, hm, h⟩ := h
  dsimp only at h
  split at h
  · rename_i hE
    obtain ⟨rfl, rfl, rfl, rfl⟩ := hE
    refine ⟨f1, g1, b1, m1, hf, hg, hb, hm, ?_⟩
    have hr := exec_runs (fun _ => Toy.world) ⟨[], [], []⟩ (image f1 g1 b1) ⟨Value.nil, Value.nil⟩ 40
      (.run (mainFrame ⟨0, 0, 2, m1, []⟩ Value.nil) [] (fun _ _ _ => Value.nil) ⟨[], []⟩)
    have h := Option.some.inj h
    unfold ended at h
    split at h
    · rename_i v' σ hk
      rw [hk] at hr
      simp only [Option.some.injEq, Prod.mk.injEq] at h
      exact ⟨σ, h.2, by rw [← h.1]; exact hr⟩
    · cases h
  · cases h

/-- **C83** (`return` in a block, violated).  `def f; yield; 7; end; def g; f { return 5 }; 8; end; g`.  The value in Ruby is 5;
here it is 8. -/
theorem C83_return_ends_the_method_fails : Ends f g returning (.send .self gId .nil) (Value.integer 8) [] :=
  ends (by decide +kernel)

/-- **C83** (`break` in a block, violated).  `def f; 1 + (yield; p 6; return 7); end; def g; f { break 5 }; end; g`.  In Ruby, the
value is 5 and nothing is printed; here 6 is printed and the value is 7. -/
theorem C83_break_ends_the_call_fails : Ends f' g' breaking (.send .self gId .nil) (Value.integer 7) [Value.integer 6] :=
  ends (by decide +kernel)

/-- `C83_return_through_blocks` at work: `def f; yield; 7; end; def g; f { yield; p 6 }; 8; end; g { return 5 }`.  The block with
`p 6` is not resumed, `f` and `g` are (the value is 8, nothing is printed). -/
example : (do
    let f ← compile ctx f
    let g ← compile ctx (.seq (.of [.sendB .self fId .nil 1, .lit (.int 8)]))
    let b ← compile ctxB (.seq (.of [.yield_ .nil, .send .self Toy.pId (.of [.lit (.int 6)])]))
    let b2 ← compile ctxB returning
    let m ← compile ctx (.sendB .self gId .nil 2)
    ended (exec (fun _ => Toy.world) ⟨[], [], []⟩
      ⟨[⟨fId, 0, 2, f.1, []⟩, ⟨gId, 0, 2, g.1, []⟩], [⟨1, 0, 0, b.1, []⟩, ⟨2, 0, 0, b2.1, []⟩]⟩ ⟨Value.nil, Value.nil⟩ 60
      (.run (mainFrame ⟨0, 0, 2, m.1, []⟩ Value.nil) [] (fun _ _ _ => Value.nil) ⟨[], []⟩))) = some (Value.integer 8, []) := by
  decide +kernel

end Exits
end Verif.Blocks
