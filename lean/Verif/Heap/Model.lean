/-!
# The object heap and its collector

Model of `Allocator` (`ruruby/src/alloc.rs`).  `D` is the contents of an occupied cell.

A cell is a page and an index in it.  The memory of all pages is one map from cells to their contents: not yet
written, an object, or a free cell holding the link to the next free cell (`RVFlag::next`).  Mark bitmaps are 63 words
of 64 bits per page, as in the code.  Simplifications: pages obtained from the system are numbered and assumed
distinct; the byte address of a cell (`get_data_ptr`, `from_inner`) is the pair of page and index; when a collection
starts is not modelled (`check_gc` looks at malloc statistics): theorems hold for collections at any moment.
-/
namespace Verif.Heap

structure Cell where
  page : Nat
  idx : Nat
  deriving DecidableEq

inductive CellSt (D : Type) where
  | uninit
  | obj (d : D)
  | free (next : Option Cell)

/-- `alloc.rs:29` -/
def SIZE : Nat := 64
/-- `alloc.rs:32` -/
def DATA_LEN : Nat := 64 * 63
/-- `alloc.rs:33` -/
def THRESHOLD : Nat := 64 * 62

/-- `alloc.rs:57-81` `Allocator`, with the memory it manages. -/
structure Alloc (D : Type) where
  used_in_current : Nat
  allocated : Nat
  free_list_count : Nat
  current : Nat
  pages : List Nat
  mark_counter : Nat
  free : Option Cell
  free_pages : List Nat           -- top of the vector first
  count : Nat
  alloc_flag : Bool
  gc_enabled : Bool
  mem : Cell → CellSt D
  bits : Nat → Nat → BitVec 64    -- page, word
  next_page : Nat                 -- pages obtained from the system so far

variable {D : Type}

def setMem (mem : Cell → CellSt D) (c : Cell) (x : CellSt D) : Cell → CellSt D := fun c' => if c' = c then x else mem c'

/-- `alloc.rs:84-103` `Allocator::new` -/
def Alloc.new : Alloc D :=
  { used_in_current := 0, allocated := 0, free_list_count := 0, current := 0, pages := [], mark_counter := 0,
    free := none, free_pages := [], count := 0, alloc_flag := false, gc_enabled := true,
    mem := fun _ => .uninit, bits := fun _ _ => 0, next_page := 1 }

/-- `alloc.rs:148-188` `alloc` -/
def Alloc.alloc (a : Alloc D) (data : D) : Cell × Alloc D :=
  let a := { a with allocated := a.allocated + 1 }
  match a.free with
  | some c =>
    let next := match a.mem c with
      | .free n => n
      | _ => none                                   -- `next` would trip its assertion: not a free cell
    (c, { a with free := next, mem := setMem a.mem c (.obj data), free_list_count := a.free_list_count - 1 })
  | none =>
    if a.used_in_current = DATA_LEN then
      let a := { a with used_in_current := 1, pages := a.pages ++ [a.current] }
      match a.free_pages with
      | p :: rest =>
        let c := ⟨p, 0⟩
        (c, { a with current := p, free_pages := rest, mem := setMem a.mem c (.obj data) })
      | [] =>
        let c := ⟨a.next_page, 0⟩
        (c, { a with current := a.next_page, next_page := a.next_page + 1, mem := setMem a.mem c (.obj data) })
    else
      let flag := if a.used_in_current = THRESHOLD then true else a.alloc_flag
      let c := ⟨a.current, a.used_in_current⟩
      (c, { a with alloc_flag := flag, used_in_current := a.used_in_current + 1, mem := setMem a.mem c (.obj data) })

/-- `alloc.rs:267-271` `clear_mark` -/
def Alloc.clear_mark (a : Alloc D) : Alloc D :=
  { a with bits := fun p w => if p = a.current ∨ p ∈ a.pages then 0 else a.bits p w, mark_counter := 0 }

/-- `alloc.rs:244-262` `gc_check_and_mark` -/
def Alloc.gc_check_and_mark (a : Alloc D) (c : Cell) : Bool × Alloc D :=
  let bit_mask : BitVec 64 := 1#64 <<< (c.idx % 64)
  let bitmap := a.bits c.page (c.idx / 64)
  let is_marked := bitmap &&& bit_mask ≠ 0
  (is_marked,
    { a with
      bits := fun p w => if p = c.page ∧ w = c.idx / 64 then bitmap ||| bit_mask else a.bits p w,
      mark_counter := if is_marked then a.mark_counter else a.mark_counter + 1 })

/-- `value/rvalue.rs:448-492` `RValue::mark`: stop at a cell already marked, else mark it and go through what it
refers to, recursively.  `kids` lists what `mark` visits for each kind of contents.  `fuel` bounds the depth of the
recursion: `gc` passes more than there are cells. -/
def markFrom (kids : D → List Cell) : (fuel : Nat) → Alloc D → Cell → Alloc D
  | 0, a, _ => a
  | fuel + 1, a, c =>
    match a.gc_check_and_mark c with
    | (true, a') => a'
    | (false, a') =>
      match a'.mem c with
      | .obj d => (kids d).foldl (markFrom kids fuel) a'
      | _ => a'                                       -- `panic!("Invalid rvalue. (maybe GC problem)")`

/-- `alloc.rs:501-503` `all_dead` -/
def Alloc.all_dead (a : Alloc D) (p : Nat) : Bool := (List.range (SIZE - 1)).all (fun w => a.bits p w = 0)

/-- `alloc.rs:465-471` `free_page`: every cell of the page is emptied. -/
def freePage (mem : Cell → CellSt D) (p : Nat) : Cell → CellSt D := fun c =>
  if c.page = p ∧ c.idx < DATA_LEN then .free none else mem c

/-- `alloc.rs:273-284` `dealloc_empty_pages`, from the last page to the first. -/
def dealloc_empty_pages : (n : Nat) → Alloc D → Alloc D
  | 0, a => a
  | n + 1, a =>
    match a.pages[n]? with
    | none => dealloc_empty_pages n a
    | some p =>
      if a.all_dead p then
        dealloc_empty_pages n { a with
          pages := a.pages.eraseIdx n, mem := freePage a.mem p, free_pages := p :: a.free_pages }
      else dealloc_empty_pages n a

/-- The list being built by `sweep`: memory, the link in the anchor, and the cell `head` points to (`none`: the
anchor). -/
structure SweepSt (D : Type) where
  mem : Cell → CellSt D
  anchor : Option Cell
  head : Option Cell

/-- `alloc.rs:293-298`: append one dead cell to the free list. -/
def sweepCell (st : SweepSt D) (c : Cell) : SweepSt D :=
  let st := match st.head with
    | none => { st with anchor := some c }
    | some h => { st with mem := setMem st.mem h (.free (some c)) }
  { st with head := some c, mem := setMem st.mem c (.free none) }

/-- The number of ones at the low end of a word (`u64::trailing_ones`). -/
def trailing_ones (w : BitVec 64) : Nat := ((List.range 64).takeWhile (fun i => w.getLsbD i)).length

/-- `alloc.rs:291-303`: the loop of `sweep_bits`. -/
def sweepBitsLoop (page : Nat) : (n : Nat) → BitVec 64 → (ptr : Nat) → SweepSt D → (c : Nat) → Nat × SweepSt D × Nat
  | 0, _, ptr, st, c => (ptr, st, c)
  | n + 1, map, ptr, st, c =>
    if map &&& 1 = 0 then sweepBitsLoop page n (map >>> 1) (ptr + 1) (sweepCell st ⟨page, ptr⟩) (c + 1)
    else sweepBitsLoop page n (map >>> 1) (ptr + 1) st c

/-- `alloc.rs:286-305` `sweep_bits`: new pointer, list and number of cells freed. -/
def sweep_bits (page : Nat) (bit : Nat) (map : BitVec 64) (ptr : Nat) (st : SweepSt D) : Nat × SweepSt D × Nat :=
  let min := trailing_ones map
  sweepBitsLoop page (bit - min) (if min < 64 then map >>> min else 0) (ptr + min) st 0

/-- `alloc.rs:314-316`, `325-327`: sweep the first `n` words of a page. -/
def sweepWords (page : Nat) (bits : Nat → BitVec 64) : List Nat → (ptr : Nat) → SweepSt D → (c : Nat) → Nat × SweepSt D × Nat
  | [], ptr, st, c => (ptr, st, c)
  | w :: ws, ptr, st, c =>
    match sweep_bits page 64 (bits w) ptr st with
    | (ptr, st, k) => sweepWords page bits ws ptr st (c + k)

/-- `alloc.rs:312-317`: sweep the full pages. -/
def sweepPages (bits : Nat → Nat → BitVec 64) : List Nat → SweepSt D → (c : Nat) → SweepSt D × Nat
  | [], st, c => (st, c)
  | p :: ps, st, c =>
    match sweepWords p (bits p) (List.range (SIZE - 1)) 0 st c with
    | (_, st, c) => sweepPages bits ps st c

/-- `alloc.rs:307-335` `sweep` -/
def Alloc.sweep (a : Alloc D) : Alloc D :=
  match sweepPages a.bits a.pages ⟨a.mem, none, none⟩ 0 with
  | (st, c) =>
    let i := a.used_in_current / 64
    let bit := a.used_in_current % 64
    match sweepWords a.current (a.bits a.current) ((List.range (SIZE - 1)).take i) 0 st c with
    | (ptr, st, c) =>
      match (if i < SIZE - 1 then sweep_bits a.current bit (a.bits a.current i) ptr st else (ptr, st, 0)) with
      | (_, st, k) => { a with mem := st.mem, free := st.anchor, free_list_count := c + k }

/-- `alloc.rs:210-242` `gc`.  `roots` is what `root.mark` visits, in order. -/
def Alloc.gc (a : Alloc D) (kids : D → List Cell) (roots : List Cell) : Alloc D :=
  if !a.gc_enabled then a
  else
    let a := a.clear_mark
    let a := roots.foldl (markFrom kids (a.pages.length * DATA_LEN + a.used_in_current + 1)) a
    let a := dealloc_empty_pages a.pages.length a
    let a := a.sweep
    { a with alloc_flag := false, count := a.count + 1 }

end Verif.Heap
