import Verif.Eq.Model
import Verif.Value.Spec
/-!
# Specification for C81: data

What a value that consists of numbers, symbols, strings, arrays and ranges says, apart from where its objects
lie and how they are represented.
-/
namespace Verif.Eq
open Verif.Value

/-- Data: `nil`, `true`, `false`, integers of any size, symbols; strings; arrays and ranges of data. -/
inductive Datum
  | atom (s : Src)
  | str (bytes : List UInt8)
  | arr (es : List Datum)
  | rng (first last : Datum) (exclude : Bool)

mutual
/-- In this heap the value `v` says `d`. Floats are left out. -/
inductive Holds (heap : Nat → Obj) : V → Datum → Prop
  | imm {s : Src} {w : Word} : (∀ b, s ≠ .float b) → store s = .word w → Holds heap (.imm w) (.atom s)
  | big {a : Nat} {n : Int} : store (.int n) = .big n → heap a = .big n → Holds heap (.ref a) (.atom (.int n))
  | str {a : Nat} {r : Verif.Hash.RStr} : heap a = .str r → Holds heap (.ref a) (.str r.as_bytes)
  | arr {a : Nat} {vs : List V} {ds : List Datum} : heap a = .arr vs → HoldsAll heap vs ds →
      Holds heap (.ref a) (.arr ds)
  | rng {a : Nat} {v w : V} {d e : Datum} {x : Bool} : heap a = .rng v w x → Holds heap v d → Holds heap w e →
      Holds heap (.ref a) (.rng d e x)
inductive HoldsAll (heap : Nat → Obj) : List V → List Datum → Prop
  | nil : HoldsAll heap [] []
  | cons {v : V} {d : Datum} {vs : List V} {ds : List Datum} : Holds heap v d → HoldsAll heap vs ds →
      HoldsAll heap (v :: vs) (d :: ds)
end

/-- With enough fuel, and any amount beyond it, the comparison answers `b` and changes nothing. -/
def Answers {σ : Type} (f : Nat → σ → Out σ) (s : σ) (b : Prop) : Prop :=
  ∃ k t, (t = true ↔ b) ∧ ∀ fuel ≥ k, f fuel s = some (some t, s)

end Verif.Eq
