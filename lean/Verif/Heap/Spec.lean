import Verif.Heap.Model
/-!
# Specification of the heap

What a program sees of the heap is a partial map from cells to contents.  Everything here is stated on that map,
without mark bits, pages or free lists.
-/
namespace Verif.Heap
variable {D : Type}

/-- What the program can see in a cell. -/
def contents (a : Alloc D) : Cell → Option D := fun c =>
  match a.mem c with
  | .obj d => some d
  | _ => none

/-- The cells a program can get at from `roots`, following what each object refers to. -/
inductive Reachable (h : Cell → Option D) (refs : D → List Cell) (roots : List Cell) : Cell → Prop
  | root {c} : c ∈ roots → Reachable h refs roots c
  | step {c d k} : Reachable h refs roots c → h c = some d → k ∈ refs d → Reachable h refs roots k

/-- The map with one cell set. -/
def upd (h : Cell → Option D) (c : Cell) (d : D) : Cell → Option D := fun c' => if c' = c then some d else h c'

/-- A cell the allocator has handed out at some time since its page came into use. -/
def inUse (a : Alloc D) (c : Cell) : Prop :=
  (c.page ∈ a.pages ∧ c.idx < DATA_LEN) ∨ (c.page = a.current ∧ c.idx < a.used_in_current)

/-- Number of a set of cells: `n` distinct cells are exactly those satisfying `P`. -/
def NumberOf (P : Cell → Prop) (n : Nat) : Prop := ∃ l : List Cell, l.Nodup ∧ l.length = n ∧ ∀ c, c ∈ l ↔ P c

/-- The ideal heap of a program: what it allocated and wrote, as if nothing were ever collected, with the roots it
holds.  The third component is the real heap, on which the same operations are carried out and collections happen at
any moment.

* allocation: the new object may refer to anything the program can get at; the program now holds it;
* writing: a program overwrites an object it can get at with references to objects it can get at;
* the roots change to anything the program can get at;
* a collection, which the ideal heap does not notice. -/
inductive Run (refs : D → List Cell) : (Cell → Option D) → List Cell → Alloc D → Prop
  | start : Run refs (fun _ => none) [] Alloc.new
  | alloc {h roots a} (d : D) : Run refs h roots a → (∀ k ∈ refs d, Reachable h refs roots k) →
      Run refs (upd h (a.alloc d).1 d) ((a.alloc d).1 :: roots) (a.alloc d).2
  | write {h roots a} (c : Cell) (d : D) : Run refs h roots a → Reachable h refs roots c →
      (∀ k ∈ refs d, Reachable h refs roots k) →
      Run refs (upd h c d) roots { a with mem := setMem a.mem c (.obj d) }
  | roots {h roots a} (roots' : List Cell) : Run refs h roots a → (∀ k ∈ roots', Reachable h refs roots k) →
      Run refs h roots' a
  | gc {h roots a} : Run refs h roots a → Run refs h roots (a.gc refs roots)
  | gc_enable {h roots a} (b : Bool) : Run refs h roots a → Run refs h roots { a with gc_enabled := b }

end Verif.Heap
