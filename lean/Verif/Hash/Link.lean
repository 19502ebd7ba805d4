import Verif.Hash.KeyProps
import Verif.Hash.MapProps
/-! # The finite-map theorems for actual keys (C17 with C19) -/
namespace Verif.Hash
variable (q : Int → Verif.Value.Word → Bool)

/-- Keys lying in the heap `h`, without hashes inside. -/
abbrev PlainKey (h : Nat → Key) := {k : Key // k.Wf h ∧ k.plain}

/-- Key equality on them. -/
def keyEq (h : Nat → Key) (a b : PlainKey h) : Bool := eql q a.1 b.1

/-- C17/C19: key equality meets the hypothesis of the finite-map theorems. -/
theorem C17_keys_equiv (h : Nat → Key) : IsEquiv (keyEq q h) :=
  ⟨fun a => C19_refl q a.1,
   fun a b e => C19_symm_partial q h a.1 b.1 a.2.1 b.2.1 a.2.2 e,
   fun a b c e f => C19_trans_partial q h a.1 b.1 c.1 a.2.1 b.2.1 c.2.1 a.2.2 b.2.2 e f⟩

/-- What the `indexmap` crate does: among the entries whose hash value is that of the key, the first that is equal. -/
def getHashed {V : Type} (hash : List Token → Nat) (h : Nat → Key) (m : List (PlainKey h × V)) (x : PlainKey h) : Option V :=
  ((m.filter (fun e => hash e.1.1.stream == hash x.1.stream)).find? (fun e => eql q e.1.1 x.1)).map Prod.snd

/-- C17/C19: looking only among entries with the same hash value gives the same answer, for every hash function of
the tokens: a stored entry is always found again. -/
theorem C17_hashed_lookup {V : Type} (hash : List Token → Nat) (h : Nat → Key) (m : List (PlainKey h × V)) (x : PlainKey h) :
    getHashed q hash h m x = get (keyEq q h) m x := by
  unfold getHashed
  induction m with
  | nil => rfl
  | cons e m ih =>
    obtain ⟨k, v⟩ := e
    simp only [get]
    by_cases he : keyEq q h k x = true
    · have hs := C19_hash_partial q h k.1 x.1 k.2.1 x.2.1 k.2.2 he
      have he' : eql q k.1 x.1 = true := he
      simp [hs, he, he']
    · rw [if_neg he]
      have he' : ¬ eql q k.1 x.1 = true := he
      by_cases hh : (hash k.1.stream == hash x.1.stream) = true
      · simp only [List.filter_cons, hh, if_true, List.find?_cons]
        simp only [he']
        exact ih
      · simp only [List.filter_cons, hh, if_false]
        exact ih

/-- The same for all keys. -/
def getAny {V : Type} (hash : List Token → Nat) (m : List (Key × V)) (x : Key) : Option V :=
  ((m.filter (fun e => hash e.1.stream == hash x.stream)).find? (fun e => eql q e.1 x)).map Prod.snd

/-- **C17** (violated: a hash as key).  After `h[{1=>2, 3=>4}] = v`, the equal key `{3=>4, 1=>2}` finds nothing, for every hash
function that tells the two sequences of tokens apart, and finds `v` for the others: what a lookup gives depends on the hash
function. -/
theorem C17_hash_as_key_fails {V : Type} (v : V) (hash : List Token → Nat) :
    let one : Key := .imm 3#64; let two : Key := .imm 5#64; let three : Key := .imm 7#64; let four : Key := .imm 9#64
    let a : Key := .hash 1 (.cons one two (.cons three four .nil))
    let b : Key := .hash 2 (.cons three four (.cons one two .nil))
    eql q a b = true ∧ (hash a.stream ≠ hash b.stream → getAny q hash [(a, v)] b = none) ∧
      (hash a.stream = hash b.stream → getAny q hash [(a, v)] b = some v) ∧ a.stream ≠ b.stream := by
  intro one two three four a b
  have h := C19_hash_of_hash_fails q
  have he : eql q a b = true := h.1
  refine ⟨he, fun hn => ?_, fun hn => ?_, h.2⟩
  · simp only [getAny, List.filter_cons, List.filter_nil, beq_eq_false_iff_ne.2 hn, Bool.false_eq_true, if_false, List.find?_nil, Option.map_none]
  · simp only [getAny, List.filter_cons, List.filter_nil, beq_iff_eq.2 hn, if_true, List.find?_cons, he, Option.map_some]

end Verif.Hash
