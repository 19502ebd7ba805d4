import Verif.Arith.Lemmas
/-!
# Specification of ranges
-/
namespace Verif.Range

/-- `x` lies in `a..b` (`a...b` if the end is excluded). -/
def Within (a b : Int) (exclude : Bool) (x : Int) : Prop := a ≤ x ∧ (x < b ∨ (exclude = false ∧ x = b))

/-- `l` lists the integers with `P` in ascending order, each once. -/
def Lists (l : List Int) (P : Int → Prop) : Prop := l.Pairwise (· < ·) ∧ ∀ x, x ∈ l ↔ P x

end Verif.Range
