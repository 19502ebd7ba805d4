import Verif.Codegen.Reject
/-!
# C65: which programs the compiler rejects
-/
namespace Verif.Codegen
open Verif.ISeq Op

/-- The tree is legal as a body: the local variables that it mentions are in the tables that the body sees, and `break`
and `next` stand in loops, or anywhere if the body is a block. -/
def LegalBody (x : Ctx) (e : Node) : Prop := Legal x.knows (x.kind = some .block) false e

theorem iseq_tot {x : Ctx} {e : Node} (hl : LegalBody x e) : Tot [true] 0 (e.weight + 1) [true] 0 (gen_iseq x e) :=
  ((gen_tot (T := []) e (by simp) hl).gen 0 true).bind fun _ => op1

/-- **C65.**  Where the constant table has room for the program, the compiler accepts exactly the legal bodies, and fails
(with `break` or `next` out of place, or an unknown variable) on all others. -/
theorem C65_accepts_exactly_the_legal (x : Ctx) (e : Node) (consts : List Const) (case1 : List (Option CaseMap))
    (case2 : List (Option CaseMap2)) (caches : Nat) (h : consts.length + e.weight < 2 ^ 32) :
    (∃ g, gen_iseq x e (.start consts case1 case2 caches) = .ok ((), g)) ↔ LegalBody x e := by
  constructor
  · rintro ⟨g, hg⟩
    obtain ⟨_, g1, h1, -⟩ := bindM.1 hg
    exact ((gen_nec e [] (by simp)).gen true _ _ _ rfl h1).1
  · intro hl
    obtain ⟨_, g, hg, -⟩ := iseq_tot hl (.start consts case1 case2 caches) rfl rfl (by simp only [G.start]; omega)
    exact ⟨g, hg⟩

/-- **C65** (sizes).  The code of a body is at most as long as its weight says, and so are the additions to the tables that
bodies share. -/
theorem C65_size_of_code (x : Ctx) (e : Node) (consts : List Const) (case1 : List (Option CaseMap))
    (case2 : List (Option CaseMap2)) (caches : Nat) (g : G) (h : consts.length + e.weight < 2 ^ 32)
    (hg : gen_iseq x e (.start consts case1 case2 caches) = .ok ((), g)) :
    g.code.length ≤ 16 * (e.weight + 1) ∧ g.consts.length ≤ consts.length + (e.weight + 1) ∧
      g.case1.length ≤ case1.length + (e.weight + 1) ∧ g.case2.length ≤ case2.length + (e.weight + 1) := by
  have hl := (C65_accepts_exactly_the_legal x e consts case1 case2 caches h).1 ⟨g, hg⟩
  obtain ⟨_, g', hg', -, -, h1, h2, h3, h4⟩ := iseq_tot hl
    (.start consts case1 case2 caches) rfl rfl (by simp only [G.start]; omega)
  rw [show gen_iseq x e _ = _ from hg'] at hg
  cases hg
  exact ⟨by simpa [G.start] using h4, by simpa [G.start] using h1, by simpa [G.start] using h2, by simpa [G.start] using h3⟩

/-! ### Examples -/

/-- `while a; break; end` in a method with the variable `a` … -/
example : let x : Ctx := ⟨[⟨[4], .method⟩], [], id, 0⟩
    LegalBody x (.while_ (.lvar 4) (.brk (.lit .nil)) true) := by
  simp [LegalBody, Legal, Ctx.knows, visible]

/-- … `break` outside a loop, in a method … -/
example : let x : Ctx := ⟨[⟨[4], .method⟩], [], id, 0⟩
    ¬ LegalBody x (.brk (.lit .nil)) := by
  simp [LegalBody, Legal, Ctx.kind]

/-- … and in a block … -/
example : let x : Ctx := ⟨[⟨[], .block⟩, ⟨[4], .method⟩], [], id, 0⟩
    LegalBody x (.brk (.lvar 4)) := by
  simp [LegalBody, Legal, Ctx.kind, Ctx.knows, visible]

/-- … and a variable of the method around a class body. -/
example : let x : Ctx := ⟨[⟨[5], .method⟩, ⟨[4], .method⟩], [], id, 0⟩
    ¬ LegalBody x (.assign (.lvar 4) (.lit .nil)) := by
  simp [LegalBody, Legal, knownVar, Ctx.knows, visible]

end Verif.Codegen
