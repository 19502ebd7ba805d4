import Verif.Blocks.Props
import Verif.Methods.Factorial
import Mathlib.Tactic.Ring
/-!
# A method that calls its block any number of times (an example for C83)

`def times(n) i = 0; while i < n; yield i; i = i + 1; end; end`, and the program `s = 0; times(k) { |x| s = s + x }; s`.
-/
namespace Verif.Blocks.Sum
open Verif.Codegen (Id World St R Entry Node Nodes Ctx Toy Legal LegalBody Supported Tame Plain eval Res)
open Verif.Methods (Code Tables)
open Verif.Unwind (Compiles)
open Verif.Value (Val)

def timesId : Id := 20

/-- `n` is called 10 and `i` is called 11. -/
def ctx : Ctx := ⟨[⟨[10, 11], .method⟩], [], fun m => m + 1000, 99⟩
/-- `s` is called 12 and `k` is called 13. -/
def ctxM : Ctx := ⟨[⟨[12, 13], .method⟩], [], fun m => m + 1000, 99⟩
/-- `x` is called 14. -/
def ctxB : Ctx := ⟨[⟨[14], .block⟩, ⟨[12, 13], .method⟩], [], fun m => m + 1000, 99⟩

def cond : Node := .binop (.c .lt) (.lvar 11) (.lvar 10)
def round : Node := .seq (.of [.yield_ (.of [.lvar 11]), .assign (.lvar 11) (.binop .add (.lvar 11) (.lit (.int 1)))])
def body : Node := .seq (.of [.assign (.lvar 11) (.lit (.int 0)), .while_ cond round true])
def add : Node := .assign (.lvar 12) (.binop .add (.lvar 12) (.lvar 14))
def mainBody : Node :=
  .seq (.of [.assign (.lvar 12) (.lit (.int 0)), .sendB .self timesId (.of [.lvar 13]) 1, .lvar 12])

def times : Unwind.Method := ⟨timesId, 1, ctx, body⟩
def block : Block := ⟨1, 1, ctxB, add⟩
def main : Unwind.Method := ⟨0, 0, ctxM, mainBody⟩
def program : Program := ⟨[times, main], [block]⟩

theorem knows (x : Ctx) (i : Id) (h : ((Codegen.visible x.scopes x.extern).any (·.contains i)) = true) : x.knows i := by
  obtain ⟨t, h1, h2⟩ := List.any_eq_true.1 h
  exact ⟨t, h1, by simpa using h2⟩

theorem times_fine (rb : Bool) : times.Fine rb where
  ctx := ⟨by decide, by decide⟩
  method := rfl
  legal := by
    simp [LegalBody, times, body, cond, round, Nodes.of, Legal, Codegen.LegalAll]
    have h10 : ctx.knows 10 := knows _ _ (by decide)
    have h11 : ctx.knows 11 := knows _ _ (by decide)
    exact ⟨h11, ⟨h11, h10⟩, h11, h11, h11⟩
  tame := by simp [times, body, cond, round, Nodes.of, Tame, Codegen.TameAll, Codegen.Front]
  supported := by
    simp [times, body, cond, round, Nodes.of, Supported, Codegen.SupSeq, Codegen.SupAll, Codegen.Nodes.length, Codegen.Lit.silent]
  plain := fun _ => by simp [times, body, cond, round, Nodes.of, Codegen.Plain, Codegen.PlainSeq, Codegen.PlainAll]
  small := by decide +kernel

theorem main_fine (rb : Bool) : main.Fine rb where
  ctx := ⟨by decide, by decide⟩
  method := rfl
  legal := by
    simp [LegalBody, main, mainBody, Nodes.of, Legal, Codegen.LegalAll]
    have h12 : ctxM.knows 12 := knows _ _ (by decide)
    exact ⟨h12, knows _ _ (by decide), h12⟩
  tame := by simp [main, mainBody, Nodes.of, Tame, Codegen.TameAll]
  supported := by
    simp [main, mainBody, Nodes.of, Supported, Codegen.SupSeq, Codegen.SupAll, Codegen.Nodes.length, Codegen.Lit.silent]
  plain := fun _ => by simp [main, mainBody, Nodes.of, Codegen.Plain, Codegen.PlainSeq, Codegen.PlainAll]
  small := by decide +kernel

theorem block_fine (rb : Bool) : block.Fine rb where
  ctx := ⟨by decide, by decide⟩
  block := rfl
  legal := by
    simp [LegalBody, block, add, Nodes.of, Legal, Codegen.LegalAll]
    have h12 : ctxB.knows 12 := knows _ _ (by decide)
    exact ⟨h12, h12, knows _ _ (by decide)⟩
  tame := by simp [block, add, Nodes.of, Tame, Codegen.TameAll]
  supported := by
    simp [block, add, Nodes.of, Supported, Codegen.SupSeq, Codegen.SupAll, Codegen.Nodes.length, Codegen.Lit.silent]
  plain := fun _ => by simp [block, add, Nodes.of, Codegen.Plain, Codegen.PlainSeq, Codegen.PlainAll]
  small := by decide +kernel

abbrev base : Val → World Toy Val := fun _ => Meaning.World.numbers

variable (err : Errors Val) (rb : Bool) (n : Nat)

theorem var11 (K : World (Full Toy) Val) (σ : St (Full Toy)) : Codegen.getVar K ctx σ (.lvar 11) = σ.locals 0 1 := rfl
theorem var10 (K : World (Full Toy) Val) (σ : St (Full Toy)) : Codegen.getVar K ctx σ (.lvar 10) = σ.locals 0 0 := rfl
theorem varS (K : World (Full Toy) Val) (σ : St (Full Toy)) : Codegen.getVar K ctxB σ (.lvar 12) = σ.locals 1 0 := rfl
theorem varX (K : World (Full Toy) Val) (σ : St (Full Toy)) : Codegen.getVar K ctxB σ (.lvar 14) = σ.locals 0 0 := rfl
theorem setS (K : World (Full Toy) Val) (v : Val) (σ : St (Full Toy)) : Codegen.setVar K ctxB v σ (.lvar 12) = σ.set 1 0 v := rfl
theorem set11 (K : World (Full Toy) Val) (v : Val) (σ : St (Full Toy)) : Codegen.setVar K ctx v σ (.lvar 11) = σ.set 0 1 v := rfl

/-- The block. -/
theorem add_eval (K : World (Full Toy) Val) (me : Val) (a b c : Val) (σ : St (Full Toy)) (ha : σ.locals 1 0 = a)
    (hb : σ.locals 0 0 = b) (h : K.bin .add a b σ = (.ok c, σ)) :
    eval K me rb ctxB n add true σ = some (.val c, σ.set 1 0 c) := by
  simp only [add, eval, varS, varX, ha, hb, Codegen.evalBin, Codegen.onVal, h, Codegen.ofEff, setS]

/-- The state after a round of the block: `c` is the new sum. -/
def after (c : Val) (v : Val) (τ : St (Full Toy)) : St (Full Toy) :=
  resume [1] [2, 0] τ ((enter [1] [2, 0] [v] τ).set 1 0 c)

theorem yield_eval (me o : Val) (a c v : Val) (τ : St (Full Toy)) (ha : τ.w.2.1 0 0 0 = a)
    (h : Arith.invoke_op (· + ·) a v = .ok c) :
    (world base program err rb n 1 1 o [1] (.block 1 me [0] .none)).yield_ [v] τ = (.ok c, after c v τ) := by
  have h1 : (world base program err rb n 0 2 me [2, 0] .none).bin .add a v (enter [1] [2, 0] [v] τ) =
      (.ok c, enter [1] [2, 0] [v] τ) := by
    simp only [world, layer, Unwind.flagged, Unwind.through, base, Meaning.World.numbers, Meaning.World.bin, h, Meaning.World.ofRes]
    rfl
  have h2 := add_eval rb n (world base program err rb n 0 2 me [2, 0] .none) me a v c (enter [1] [2, 0] [v] τ)
    (by rw [← ha]; rfl) rfl h1
  have h3 : program.block 1 = some block := rfl
  rw [world]
  simp only [layer, h3, runBlock]
  show backB [1] [2, 0] τ (eval (world base program err rb n 0 2 me [2, 0] .none) me rb ctxB n add true
    (enter [1] [2, 0] [v] τ)) = _
  rw [h2, backB, after]

/-- What the method and the block see: `i` rounds are over, with the sum `s`. -/
structure Inv (m i s : Int) (w : Toy) (τ : St (Full Toy)) : Prop where
  bound : τ.locals 0 0 = Arith.num m
  count : τ.locals 0 1 = Arith.num i
  sum : τ.w.2.1 0 0 0 = Arith.num s
  objects : τ.w.1 = w
  flag : τ.w.2.2 = true

theorem cond_eval (K : World (Full Toy) Val) (me : Val) (a b : Val) (t : Bool) (σ : St (Full Toy)) (ha : σ.locals 0 1 = a)
    (hb : σ.locals 0 0 = b) (h : K.cmp .lt a b σ = (.ok t, σ)) :
    eval K me rb ctx n cond true σ = some (.val (Value.bool t), σ) := by
  simp only [cond, eval, var11, var10, ha, hb, Codegen.evalBin, Codegen.onVal, h, Codegen.ofEffB]

theorem round_eval (K : World (Full Toy) Val) (me : Val) (a b c : Val) (σ σ' : St (Full Toy)) (ha : σ.locals 0 1 = a)
    (ha' : σ'.locals 0 1 = a) (h : K.yield_ [a] σ = (.ok b, σ')) (h' : K.bin .add a (Value.integer 1) σ' = (.ok c, σ')) :
    eval K me rb ctx n round false σ = some (.val c, σ'.set 0 1 c) := by
  simp only [round, Nodes.of, eval, Codegen.evalAll, Codegen.evalSeq, var11, ha, ha', h, h', Codegen.evalBin, Codegen.onVal,
    Codegen.evalLit, Codegen.ofEff, set11, if_true]

theorem round_inv (me o : Val) {m i s : Int} {w : Toy} {τ : St (Full Toy)} (h : Inv m i s w τ) :
    ∃ v τ', eval (world base program err rb n 1 1 o [1] (.block 1 me [0] .none)) o rb ctx n round false τ = some (.val v, τ') ∧
      Inv m (i + 1) (s + i) w τ' := by
  have h1 := yield_eval err rb n me o _ _ (Arith.num i) τ h.sum (Arith.C04_add s i)
  have h2 : ∀ τ', (world base program err rb n 1 1 o [1] (.block 1 me [0] .none)).bin .add (Arith.num i) (Value.integer 1) τ' =
      (.ok (Arith.num (i + 1)), τ') := by
    intro τ'
    simp only [world, layer, Unwind.flagged, Unwind.through, base, Meaning.World.numbers, Meaning.World.bin,
      Methods.Factorial.one_num, Arith.C04_add, Meaning.World.ofRes]
    rfl
  refine ⟨_, _, round_eval rb n _ o _ _ _ τ _ h.count ?_ h1 (h2 _), ?_, rfl, rfl, h.objects, ?_⟩
  · rw [← h.count]; rfl
  · rw [← h.bound]; rfl
  · show (τ.w.2.2 && τ.w.2.2) = true
    rw [h.flag]
    rfl

theorem cond_inv (me o : Val) {m i s : Int} {w : Toy} {τ : St (Full Toy)} (h : Inv m i s w τ) :
    eval (world base program err rb n 1 1 o [1] (.block 1 me [0] .none)) o rb ctx n cond true τ =
      some (.val (Value.bool (decide (i < m))), τ) := by
  refine cond_eval rb n _ o _ _ _ τ h.count h.bound ?_
  simp only [world, layer, Unwind.flagged, Unwind.through, base, Meaning.World.numbers, Meaning.World.cmp,
    (Arith.C06_order i m).1, Meaning.World.ofRes]
  rfl

/-- The sum of `i`, …, `i + k - 1`. -/
def upTo : Nat → Nat → Nat
  | _, 0 => 0
  | i, k + 1 => i + upTo (i + 1) k

theorem loop_inv (me o : Val) (m : Nat) (w : Toy) : ∀ (k i : Nat) (s : Int) (τ : St (Full Toy)) (q : Nat), i + k = m → k < q →
    Inv m i s w τ →
    ∃ τ', Codegen.loopN (eval (world base program err rb n 1 1 o [1] (.block 1 me [0] .none)) o rb ctx n cond true)
      (eval (world base program err rb n 1 1 o [1] (.block 1 me [0] .none)) o rb ctx n round false) false q τ =
        some (.val Value.nil, τ') ∧ Inv m m (s + upTo i k) w τ' := by
  intro k
  induction k with
  | zero =>
    intro i s τ q hi hq h
    obtain ⟨q, rfl⟩ : ∃ j, q = j + 1 := ⟨q - 1, by omega⟩
    obtain rfl : i = m := by omega
    refine ⟨τ, ?_, by rw [upTo]; simpa using h⟩
    rw [Codegen.loopN, cond_inv err rb n me o h, decide_eq_false (by omega)]
    rfl
  | succ k ih =>
    intro i s τ q hi hq h
    obtain ⟨q, rfl⟩ : ∃ j, q = j + 1 := ⟨q - 1, by omega⟩
    obtain ⟨v, τ1, h1, h2⟩ := round_inv err rb n me o h
    obtain ⟨τ', h3, h4⟩ := ih (i + 1) (s + i) τ1 q (by omega) (by omega) (by exact_mod_cast h2)
    refine ⟨τ', ?_, ?_⟩
    · rw [Codegen.loopN, cond_inv err rb n me o h, decide_eq_true (by omega)]
      dsimp only
      rw [if_neg (by decide), h1]
      exact h3
    · rw [upTo, Nat.cast_add, ← Int.add_assoc]
      exact h4

theorem upTo_eq (i k : Nat) : 2 * upTo i k = k * (2 * i + k - 1) := by
  induction k generalizing i with
  | zero => simp [upTo]
  | succ k ih =>
    rw [upTo, Nat.mul_add, ih]
    have : 2 * (i + 1) + k - 1 = 2 * i + k + 1 := by omega
    rw [this]
    have : 2 * i + (k + 1) - 1 = 2 * i + k := by omega
    rw [this]
    ring

/-- The method, by the source. -/
theorem body_eval (me o : Val) (m : Nat) (w : Toy) (hn : m < n) (τ : St (Full Toy)) (h1 : τ.locals 0 0 = Arith.num m)
    (h2 : τ.w.2.1 0 0 0 = Arith.num 0) (h3 : τ.w.1 = w) (h4 : τ.w.2.2 = true) :
    ∃ τ', eval (world base program err rb n 1 1 o [1] (.block 1 me [0] .none)) o rb ctx n body true τ =
      some (.val Value.nil, τ') ∧ Inv m m (upTo 0 m) w τ' := by
  have hI : Inv m (0 : Nat) 0 w (τ.set 0 1 (Value.integer 0)) :=
    ⟨h1, by rw [Nat.cast_zero, ← Methods.Factorial.zero_num]; rfl, h2, h3, h4⟩
  obtain ⟨τ', h5, h6⟩ := loop_inv err rb n me o m w m 0 0 _ n (by omega) hn hI
  refine ⟨τ', ?_, by rw [Int.zero_add] at h6; exact h6⟩
  rw [← h5]
  simp only [body, Nodes.of, Codegen.evalSeq, eval, Codegen.onVal, Codegen.evalLit, if_true, set11, Bool.not_true]

/-- The program, by the source. -/
theorem main_eval (me : Val) (m : Nat) (hn : m < n) (σ : St Toy) (hk : σ.locals 0 1 = Arith.num m) :
    ∃ σ', run base program err rb n 2 me ctxM mainBody σ = some (.val (Arith.num (upTo 0 m)), σ') ∧ σ'.w.1 = σ.w ∧
      σ'.w.2.2 = true := by
  rw [run]
  generalize hσ0 : St.set (W := Full Toy) ⟨σ.locals, (σ.w, (fun _ => σ.locals, true))⟩ 0 0 (Value.integer 0) = σ0
  have hset : ∀ K : World (Full Toy) Val,
      Codegen.setVar K ctxM (Value.integer 0) ⟨σ.locals, (σ.w, (fun _ => σ.locals, true))⟩ (.lvar 12) = σ0 := fun _ => hσ0
  have hget : ∀ K : World (Full Toy) Val, Codegen.getVar K ctxM σ0 (.lvar 13) = Arith.num m := by
    intro K
    rw [← hσ0, ← hk]
    rfl
  have hstart : ∀ v : Val, (enter [0] [1] [v] σ0).locals 0 0 = v := fun _ => rfl
  obtain ⟨τ, h1, h2⟩ := body_eval err rb n me me m σ.w hn (enter [0] [1] [Arith.num m] σ0) (hstart _)
    (by rw [← Methods.Factorial.zero_num, ← hσ0]; rfl) (by rw [← hσ0]; rfl) (by rw [← hσ0]; rfl)
  have hf : program.method timesId = some times := rfl
  have hcall : (world base program err rb n 2 0 me [0] .none).call 1 timesId me [Arith.num m] σ0 =
      (.ok Value.nil, resume [0] [1] σ0 τ) := by
    rw [World.call, if_neg (by decide), world]
    simp only [layer, hf, callMethod]
    rw [if_neg (by simp [times])]
    show back [0] [1] σ0 (eval (world base program err rb n 1 1 me [1] (.block 1 me [0] .none)) me rb ctx n body true
      (enter [0] [1] [Arith.num m] σ0)) = _
    rw [h1, back]
  have hlast : ∀ K : World (Full Toy) Val, Codegen.getVar K ctxM (resume [0] [1] σ0 τ) (.lvar 12) = Arith.num (upTo 0 m) := by
    intro K
    rw [← h2.sum]
    rfl
  refine ⟨resume [0] [1] σ0 τ, ?_, h2.objects, ?_⟩
  · simp only [mainBody, Nodes.of, Codegen.evalSeq, eval, Codegen.evalAll, Codegen.onVal, Codegen.evalLit, if_true, hset, hget, hcall, hlast,
      Codegen.ofEff]
  · show (σ0.w.2.2 && τ.w.2.2) = true
    rw [h2.flag, ← hσ0]
    rfl

/-- **C83**, for this program: it compiles; and for every number `m`, of any size, in its variable `k`, the interpreter ends with
the sum of the numbers below `m`: the block, run `m` times with a frame of its own, changes the variable of the program. -/
theorem C83_block_adds_to_a_variable : ∃ (M : Image) (c : Code) (T : Tables), Built true T program M ∧ Compiles true T main c ∧
    ∀ (err : Errors Val) (self : Val) (m : Nat) (σ : St Toy), σ.locals 0 1 = Arith.num m →
      ∃ σ', σ'.w = σ.w ∧ Runs base T M err (.run (mainFrame c self) [] (fun _ => σ.locals) σ.w)
        (.done (.ret (Arith.num (m * (m - 1) / 2 : Nat)) σ')) := by
  obtain ⟨M, T, h⟩ := C83_programs_compile (rb := true) program
    (by
      intro f hf
      simp only [program, List.mem_cons, List.not_mem_nil, or_false] at hf
      rcases hf with rfl | rfl
      · exact times_fine true
      · exact main_fine true)
    (by
      intro f hf
      simp only [program, List.mem_cons, List.not_mem_nil, or_false] at hf
      subst hf
      exact block_fine true) (by decide +kernel)
  obtain ⟨c, hc⟩ : ∃ c, Compiles true T main c := by
    have h1 := h.methods
    simp only [program] at h1
    generalize M.methods = ms at h1
    obtain _ | ⟨a1, _ | ⟨a2, _ | _⟩⟩ := h1
    exact ⟨_, a2⟩
  refine ⟨M, c, T, h, hc, fun err self m σ hσ => ?_⟩
  obtain ⟨σ', h1, h2, h3⟩ := main_eval err true (m + 1) self m (by omega) σ hσ
  have h4 := C83_blocks_do_what_the_source_says_partial h hc (m + 1) 2 self σ _ _ h1 h3
  refine ⟨Unwind.untag σ', h2, ?_⟩
  have h5 : m * (m - 1) / 2 = upTo 0 m := by
    have := upTo_eq 0 m
    rw [Nat.mul_zero, Nat.zero_add] at this
    omega
  rw [h5]
  exact h4

end Verif.Blocks.Sum
