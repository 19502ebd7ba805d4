import Verif.Source.Model
/-!
# Lines of a text, independently of how they are found
-/
namespace Verif.Source

/-- `[top, e)` is the text of line number `n` of `code`: it contains no newline, it begins at the beginning of
the text or after a newline, it ends before a newline or at the end of the text, and `n` is one more than the
number of newlines before it. -/
def IsLine (code : Bytes) (n top e : Nat) : Prop :=
  top ≤ e ∧ e ≤ code.length ∧
  (∀ i, top ≤ i → i < e → code[i]? ≠ some NL) ∧
  (top = 0 ∨ code[top - 1]? = some NL) ∧
  (e = code.length ∨ code[e]? = some NL) ∧
  n = (code.take top).count NL + 1

/-- `p` lies on a line that is closed by a newline. -/
def Closed (code : Bytes) (p : Nat) : Prop := ∃ q, p ≤ q ∧ code[q]? = some NL

end Verif.Source
