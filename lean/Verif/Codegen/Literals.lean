import Verif.Codegen.Props
/-!
# C31: arrays of literals

An array whose elements are literals is made at compile time; it means the same as the array of its elements.
-/
namespace Verif.Codegen
open Verif.Value (Val)

variable {W X : Type}

/-- The elements one by one, as expressions. -/
def litNodes : List Lit → Nodes
  | [] => .nil
  | l :: ls => .cons (.lit l) (litNodes ls)

/-- **C31** (arrays of literals). The array made at compile time has the values that its elements have when they are evaluated
one after the other, in this order. -/
theorem C31_literal_array (K : World W X) (self : Val) (rb : Bool) (x : Ctx) (n : Nat) {ls : List Lit}
    (h : ls.all Lit.packed = true) (σ : St W) :
    eval K self rb x n (.carray ls) true σ = eval K self rb x n (.array (litNodes ls)) true σ := by
  have h1 : ∀ ls : List Lit, ls.all Lit.packed = true →
      evalAll K self rb x n (litNodes ls) σ = some (.ok (ls.map Lit.value), σ) := by
    intro ls
    induction ls with
    | nil => intro _; rw [litNodes, evalAll]; rfl
    | cons l ls ih =>
      intro h
      rw [List.all_cons, Bool.and_eq_true] at h
      have hl : evalLit K σ l = (l.value, σ) := by
        cases l <;> first | rfl | cases h.1
      rw [litNodes, evalAll, eval, if_pos rfl, hl]
      simp only [ih h.2, List.map_cons]
  rw [eval, eval, if_pos rfl, h1 ls h]

example : ([.int 1, .flt 0x3ff0000000000000#64, .sym 7#32, .nil] : List Lit).all Lit.packed = true := rfl

end Verif.Codegen
