import Verif.Literal.Model
import Mathlib.Data.List.Forall2
/-!
# What a literal denotes
-/
namespace Verif.Literal

/-- The value `v` is, all the way down, what the literal says. -/
inductive Denotes (h : Heap) : V → Lit → Prop
  | imm (n) : Denotes h (.imm n) (.imm n)
  | str (a s) : h.cell a = .str s → Denotes h (.ref a) (.str s)
  | arr (a vs ls) : h.cell a = .arr vs → List.Forall₂ (Denotes h) vs ls → Denotes h (.ref a) (.arr ls)
  | hash (a vs ls) : h.cell a = .hash vs →
      List.Forall₂ (Denotes h) (vs.map Prod.fst) (ls.map Prod.fst) →
      List.Forall₂ (Denotes h) (vs.map Prod.snd) (ls.map Prod.snd) → Denotes h (.ref a) (.hash ls)

/-- not an object, so nothing can change it -/
def Lit.Imm : Lit → Prop
  | .imm _ => True
  | _ => False

/-- no string, array or hash inside -/
def Lit.Flat : Lit → Prop
  | .imm _ => True
  | .str _ => True
  | .arr l => ∀ e ∈ l, e.Imm
  | .hash l => ∀ e ∈ l, e.1.Imm ∧ e.2.Imm

end Verif.Literal
