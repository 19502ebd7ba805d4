import Verif.Arith.Lemmas
/-! # Specification of integer iteration (C12) and of positional digits (C11) -/
namespace Verif.Arith
open Verif.Value

/-- Run the block on the listed integers, one after the other, stopping at the first exception; the value of the
whole expression is the receiver. -/
def visits {σ ε : Type} (l : List Int) (receiver : Int) (body : Body σ ε) (s : σ) : IterRes σ ε :=
  match l.foldlM (fun s i => body (num i) s) s with
  | .ok s' => .ok (num receiver, s')
  | .error e => .error (.inr (some e))

/-- `a, a+s, …, a+(k-1)s`. -/
def progression (a s : Int) (k : Nat) : List Int := (List.range k).map (fun (i : Nat) => a + i * s)

/-- The number with base-`b` digits `ds`, least significant first. -/
def valueOf (b : Nat) : List Nat → Nat
  | [] => 0
  | d :: ds => d + b * valueOf b ds

end Verif.Arith
