/-!
# Hashes

Model of `HashInfo` (`ruruby/src/value/hash.rs`) and of the methods of `ruruby/src/builtin/hash.rs`.

`FxIndexMap` (the `indexmap` crate, version 1.6) is modelled by the list of its entries in index order; a lookup
finds the entry whose key is equal to the given one.  (The crate looks only among entries with the same hash
value; that this makes no difference is what `C19` says.)  `eq` is the key equality: `HashKey`'s `eql?`, or
identity after `compare_by_identity`.
-/
namespace Verif.Hash
section
variable {K V : Type} (eq : K → K → Bool)

/-- `hash.rs:230-235` `get` -/
def get : List (K × V) → K → Option V
  | [], _ => none
  | (k, v) :: m, x => if eq k x then some v else get m x

/-- `hash.rs:265-270` `contains_key` -/
def contains_key (m : List (K × V)) (x : K) : Bool := m.any (fun e => eq e.1 x)

/-- `hash.rs:251-256` `insert`: an existing entry keeps its place and its key. -/
def insert : List (K × V) → K → V → List (K × V)
  | [], x, v => [(x, v)]
  | (k, w) :: m, x, v => if eq k x then (k, v) :: m else (k, w) :: insert m x v

/-- position of a key in the index order -/
def indexOf : List (K × V) → K → Option Nat
  | [], _ => none
  | (k, _) :: m, x => if eq k x then some 0 else (indexOf m x).map (· + 1)

/-- `Vec::swap_remove` -/
def swapRemoveAt {α : Type} (l : List α) (i : Nat) : List α :=
  match l.getLast? with
  | none => l
  | some z => if i + 1 = l.length then l.dropLast else (l.set i z).dropLast

/-- `hash.rs:258-263` `remove`: `IndexMap::remove` is `swap_remove`. -/
def remove (m : List (K × V)) (x : K) : Option V × List (K × V) :=
  match indexOf eq m x with
  | none => (none, m)
  | some i => ((m[i]?).map Prod.snd, swapRemoveAt m i)

/-- `hash.rs:272-277` `keys`, `values` -/
def keys (m : List (K × V)) : List K := m.map Prod.fst
def values (m : List (K × V)) : List V := m.map Prod.snd

/-- `builtin/hash.rs:217-227` `merge` with any number of arguments -/
def merge (m : List (K × V)) (others : List (List (K × V))) : List (K × V) :=
  others.foldl (fun new other => other.foldl (fun new e => insert eq new e.1 e.2) new) m

/-- `builtin/hash.rs:113-124` `select`, `reject` (`keep = false`): the block may keep state and may raise. -/
def selectH {σ ε : Type} (keep : Bool) (f : K → V → σ → Except ε (Bool × σ)) :
    List (K × V) → List (K × V) → σ → Except ε (List (K × V) × σ)
  | [], res, s => .ok (res, s)
  | (k, v) :: m, res, s =>
    match f k v s with
    | .error e => .error e
    | .ok (b, s') => selectH keep f m (if b = keep then insert eq res k v else res) s'

/-- `builtin/hash.rs:75-83` `compact` (`IndexMap::retain` keeps the order) -/
def compactH (isNil : V → Bool) (m : List (K × V)) : List (K × V) := m.filter (fun e => !isNil e.2)

/-- `builtin/hash.rs:280-288` `invert` -/
def invert {W : Type} (eq : W → W → Bool) (m : List (K × W)) : List (W × K) :=
  m.foldl (fun n e => insert eq n e.2 e.1) []

/-- `builtin/hash.rs:255-266` `compare_by_identity`: the entries are collected again under identity. -/
def compare_by_identity (ideq : K → K → Bool) (m : List (K × V)) : List (K × V) :=
  m.foldl (fun n e => insert ideq n e.1 e.2) []

/-- `builtin/hash.rs:229-253` `fetch` -/
inductive Fetch (V : Type) where
  | value (v : V) | dflt | block | notFound
def fetch (m : List (K × V)) (x : K) (hasBlock hasDefault : Bool) : Fetch V :=
  match get eq m x with
  | some v => .value v
  | none => if hasBlock then .block else if hasDefault then .dflt else .notFound

end
end Verif.Hash
