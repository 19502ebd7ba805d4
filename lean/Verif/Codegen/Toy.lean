import Verif.Codegen.Run
/-!
# A small world to run examples in, and running by computation
-/
namespace Verif.Codegen
open Verif.ISeq Op
open Verif.Value (Val)

variable {W X : Type}

/-- Steps of the interpreter are determined. -/
theorem Steps.done_unique {K : Env W X} {c : Code} {k : Conf (S W) (R W X)} {r r' : R W X}
    (h : Steps K c k (.done r)) (h' : Steps K c k (.done r')) : r = r' := by
  induction h using Relation.ReflTransGen.head_induction_on with
  | refl =>
    cases h' using Relation.ReflTransGen.head_induction_on with
    | refl => rfl
    | head h _ => obtain ⟨p, s, ev, h, -⟩ := h; cases h
  | head h1 h2 ih =>
    rcases Relation.ReflTransGen.cases_head h' with h' | ⟨k', h', h''⟩
    · obtain ⟨p, s, ev, h1, -⟩ := h1
      rw [h1] at h'; cases h'
    · obtain ⟨p, s, ev, rfl, h1⟩ := h1
      obtain ⟨p', s', ev', he, h1'⟩ := h'
      cases he
      rw [h1] at h1'; cases h1'
      exact ih h''

/-- Run at most `n` steps. -/
def runN (K : Env W X) (c : Code) : Nat → Conf (S W) (R W X) → Conf (S W) (R W X)
  | 0, k => k
  | _ + 1, .done r => .done r
  | n + 1, .at p s =>
    match step (machine K) c p s with
    | some (_, k) => runN K c n k
    | none => .at p s

theorem runN_steps (K : Env W X) (c : Code) : ∀ n k, Steps K c k (runN K c n k)
  | 0, k => .refl _
  | _ + 1, .done r => .refl _
  | n + 1, .at p s => by
    unfold runN
    split
    · rename_i h
      exact (Steps.one h).trans (runN_steps K c n _)
    · exact .refl _

/-- Arrays are numbered objects; `out` is what has been printed. -/
structure Toy where
  arrays : List (List Val)
  out : List Val
  deriving DecidableEq

namespace Toy

/-- Methods of the toy world: `p v` prints, `raise v` raises, anything else returns nil. -/
def pId : Id := 1
def raiseId : Id := 2

/-- `===`: equality, and `1 === 1.0`. -/
def teq (l r : Val) : Bool := decide (l = r) || (decide (l = Value.integer 1) && decide (r = Value.float 0x3ff0000000000000))

/-- Sums and differences of fixnums; everything else is nil. -/
def bin (op : BinOp) (l r : Val) (σ : St Toy) : Eff Toy Val Val :=
  match fixnum? l, fixnum? r, op with
  | some a, some b, .add => (.ok (Value.integer (a + b)), σ)
  | some a, some b, .sub => (.ok (Value.integer (a - b)), σ)
  | _, _, .teq => (.ok (Value.bool (teq l r)), σ)
  | _, _, _ => (.ok Value.nil, σ)

/-- Comparisons of fixnums. -/
def cmp (op : CmpOp) (l r : Val) (σ : St Toy) : Eff Toy Val Bool :=
  match fixnum? l, fixnum? r with
  | some a, some b =>
    (.ok (match op with
      | .eq => a == b | .ne => a != b | .gt => b < a | .ge => b ≤ a | .lt => a < b | .le => a ≤ b), σ)
  | _, _ => (.ok false, σ)

/-- Elements of an array. -/
def asArray (v : Val) (σ : St Toy) : Option (List Val) :=
  match v with
  | .obj a => σ.w.arrays[a]?
  | _ => none

/-- `a[i]`. -/
def index (v i : Val) (σ : St Toy) : Eff Toy Val Val :=
  match asArray v σ, fixnum? i with
  | some vs, some i => (.ok (vs[i.toNat]?.getD Value.nil), σ)
  | _, _ => (.ok Value.nil, σ)

/-- The world. -/
def world : World Toy Val where
  bin := bin
  binI op v i σ := bin op v (Value.integer i.toInt) σ
  cmp := cmp
  cmpI op v i σ := cmp op v (Value.integer i.toInt) σ
  un _ v σ := (.ok v, σ)
  getI _ _ := Value.nil
  setI _ _ σ := σ
  getG _ _ := Value.nil
  setG _ _ σ := σ
  send m _ args σ :=
    if m = pId then (.ok Value.nil, { σ with w := { σ.w with out := σ.w.out ++ args } })
    else if m = raiseId then (.error (args.head?.getD Value.nil), σ)
    else (.ok Value.nil, σ)
  sendB _ _ _ _ σ := (.ok Value.nil, σ)
  yield_ _ σ := (.ok Value.nil, σ)
  range a b _ σ := (.ok (.obj σ.w.arrays.length), { σ with w := { σ.w with arrays := σ.w.arrays ++ [[a, b]] } })
  index := index
  indexI v i σ := index v (Value.integer i.toNat) σ
  setIndex _ _ _ σ := (.ok (), σ)
  setIndexI _ _ _ σ := (.ok (), σ)
  mkArray vs σ := (.obj σ.w.arrays.length, { σ with w := { σ.w with arrays := σ.w.arrays ++ [vs] } })
  asArray := asArray
  newStr _ σ := (.obj σ.w.arrays.length, { σ with w := { σ.w with arrays := σ.w.arrays ++ [[]] } })
  keyEq l v _ := decide ((match l with
    | .nil => Value.nil | .bool b => Value.bool b | .int i => Value.integer i | .big n => Value.bignum n
    | .flt b => Value.float b | .sym id => Value.symbol id | .str _ => Value.nil) = v)
  exc x σ := (x, σ)
  thrown v := v
  rescues v cs _ := cs.contains v
  constTop _ σ := (.ok Value.nil, σ)
  binI_eq _ _ _ _ _ := rfl
  cmpI_eq _ _ _ _ := rfl
  indexI_eq _ _ _ := rfl
  setIndexI_eq _ _ _ _ := rfl
  exc_thrown _ _ := rfl

/-- All variables nil, nothing printed. -/
def init : St Toy := ⟨fun _ _ => Value.nil, ⟨[], []⟩⟩

/-- A program with local variables 10 and 11. -/
def ctx : Ctx := ⟨[⟨[10, 11], .method⟩], [], fun m => m + 1000, 99⟩

/-- Run environment of compiled code. -/
def env (g : G) : Env Toy Val := ⟨world, Value.nil, g.ex, g.consts, g.case1, g.case2⟩

/-- Compile in the toy context. -/
def compile (e : Node) : G :=
  match gen_iseq ctx e (.start [] [] [] 0) with
  | .ok (_, g) => g
  | .error _ => .start [] [] [] 0

/-- Does the program compile? -/
def compiles (e : Node) : Bool :=
  match gen_iseq ctx e (.start [] [] [] 0) with
  | .ok _ => true
  | .error _ => false

theorem compiles_ok {e : Node} (h : compiles e = true) :
    gen_iseq ctx e (.start [] [] [] 0) = .ok ((), compile e) := by
  unfold compiles at h
  unfold compile
  split at h
  · rename_i h1; rw [h1]
  · cases h

/-- The end of a run, if it ends within `n` steps. -/
def result (e : Node) (n : Nat) : Option (R Toy Val) :=
  match runN (env (compile e)) (compile e).code n (.at 0 ⟨[], init⟩) with
  | .done r => some r
  | _ => none

theorem result_steps {e : Node} {n : Nat} {r : R Toy Val} (h : result e n = some r) :
    Steps (env (compile e)) (compile e).code (.at 0 ⟨[], init⟩) (.done r) := by
  have := runN_steps (env (compile e)) (compile e).code n (.at 0 ⟨[], init⟩)
  unfold result at h
  split at h
  · rename_i h1; cases h; rwa [h1] at this
  · cases h

/-- What the run returns, the arrays it makes, and what it prints; `none` for other ends. -/
def returns (e : Node) (n : Nat) : Option (Val × Toy) :=
  match result e n with
  | some (.ret v σ) => some (v, σ.w)
  | _ => none

/-- What is raised and printed. -/
def raises (e : Node) (n : Nat) : Option (Val × Toy) :=
  match result e n with
  | some (.err v σ) => some (v, σ.w)
  | _ => none

theorem returns_steps {e : Node} {n : Nat} {v : Val} {w : Toy} (h : returns e n = some (v, w)) :
    ∃ σ, σ.w = w ∧ Steps (env (compile e)) (compile e).code (.at 0 ⟨[], init⟩) (.done (.ret v σ)) := by
  unfold returns at h
  split at h
  · rename_i h1; cases h; exact ⟨_, rfl, result_steps h1⟩
  · cases h

theorem raises_steps {e : Node} {n : Nat} {v : Val} {w : Toy} (h : raises e n = some (v, w)) :
    ∃ σ, σ.w = w ∧ Steps (env (compile e)) (compile e).code (.at 0 ⟨[], init⟩) (.done (.err v σ)) := by
  unfold raises at h
  split at h
  · rename_i h1; cases h; exact ⟨_, rfl, result_steps h1⟩
  · cases h

/-- Does the run get stuck? -/
def sticks (e : Node) (n : Nat) : Bool :=
  match result e n with
  | some .stuck => true
  | _ => false

theorem sticks_steps {e : Node} {n : Nat} (h : sticks e n = true) :
    Steps (env (compile e)) (compile e).code (.at 0 ⟨[], init⟩) (.done .stuck) := by
  unfold sticks at h
  split at h
  · rename_i h1; exact result_steps h1
  · cases h

/-- An integer literal. -/
def int (i : Int) : Node := .lit (.int i)

/-- `p i` -/
def p (i : Int) : Node := .send .self pId (.of [int i])

/-- `raise i` -/
def raise_ (i : Int) : Node := .send .self raiseId (.of [int i])

end Toy
end Verif.Codegen
