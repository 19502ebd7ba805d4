import Mathlib.Data.Int.Bitwise
/-! # Specification of the infinite two's complement reading of an integer -/
namespace Verif.Arith

/-- Bit `i` of `n` in infinite two's complement: parity of `⌊n / 2^i⌋`. -/
def bitOf (n : Int) (i : Nat) : Bool := decide (n / 2 ^ i % 2 = 1)

end Verif.Arith
